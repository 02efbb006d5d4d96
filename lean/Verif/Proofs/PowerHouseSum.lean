import Verif.Proofs.PowerHouseNet

/-! Summing out the network of the power_house demo. -/

namespace BNS

set_option linter.unusedSectionVars false

/-- Variables with one possible state are summed out. -/
theorem sumOver_det {K : Type} [DecidableEq K] (l : List (K × ℕ)) (hn : (l.map Prod.fst).Nodup)
    (c : K → ℕ) (hc : ∀ kn ∈ l, c kn.1 < kn.2) (x : K → ℕ) :
    sumOver l (fun y => if ∀ kn ∈ l, y kn.1 = c kn.1 then 1 else 0) x = 1 := by
  have h1 : (fun y : K → ℕ => if ∀ kn ∈ l, y kn.1 = c kn.1 then (1 : ℚ) else 0) =
      fun y => (l.map fun kn => (fun k i => if i = c k then (1 : ℚ) else 0) kn.1 (y kn.1)).prod := by
    funext y
    simp only
    clear hn hc
    induction l with
    | nil => simp
    | cons a l ih =>
      rw [List.map_cons, List.prod_cons, ← ih]
      by_cases e : y a.1 = c a.1
      · rw [if_pos e, one_mul]
        exact if_congr (by rw [List.forall_mem_cons]; exact ⟨fun h => h.2, fun h => ⟨e, h⟩⟩) rfl rfl
      · rw [if_neg e, zero_mul, if_neg fun h => e (h a (by simp))]
  rw [h1]
  refine (sumOver_prod l hn (fun k i => if i = c k then 1 else 0) x).trans ?_
  refine List.prod_eq_one fun q hq => ?_
  obtain ⟨kn, hkn, rfl⟩ := List.mem_map.1 hq
  rw [Finset.sum_eq_single (c kn.1)]
  · simp
  · intro b _ hb
    rw [if_neg hb]
  · intro hb
    exact absurd (Finset.mem_range.2 (hc kn hkn)) hb

/-- Renaming the variables of a sum. -/
theorem sumOver_rename {K K' : Type} [DecidableEq K] [DecidableEq K'] (f : K' → K)
    (R : (K → ℕ) → (K' → ℕ) → Prop) {F : (K → ℕ) → ℚ} {F' : (K' → ℕ) → ℚ}
    (hF : ∀ x y, R x y → F x = F' y) : ∀ (l : List (K' × ℕ)),
    (∀ kn ∈ l, ∀ x y i, R x y → R (Function.update x (f kn.1) i) (Function.update y kn.1 i)) →
    ∀ x y, R x y → sumOver (l.map fun kn => (f kn.1, kn.2)) F x = sumOver l F' y
  | [], _, x, y, h => hF x y h
  | kn :: l, hR, x, y, h => by
    simp only [List.map_cons, sumOver]
    refine Finset.sum_congr rfl fun i _ => ?_
    exact sumOver_rename f R hF l (fun kn' hkn' => hR kn' (List.mem_cons_of_mem _ hkn')) _ _
      (hR kn (by simp) x y i h)

theorem share_symm {K : Type} {l : List (Cpm K)} {a b : K} (h : Share l a b) : Share l b a := by
  obtain ⟨M, hM, h1, h2⟩ := h
  exact ⟨M, hM, h2, h1⟩

theorem share_reverse {K : Type} {l : List (Cpm K)} {a b : K}
    (h : Relation.ReflTransGen (Share l) a b) : Relation.ReflTransGen (Share l) b a := by
  induction h with
  | refl => exact .refl
  | tail _ hbc ih => exact .head (share_symm hbc) ih

variable {H B : List Name} {x0 : Name → ℕ} {w : (Name → ℕ) → ℚ} {d : PowerDicts}
  {L : List GlobalState}

/-- The variables by name. -/
def PowerEnv (d : PowerDicts) (k : Name) : Variable Name :=
  match d.2.find? fun kv => kv.1 = k with
  | some kv => kv.2
  | none => ⟨k, [], none⟩

theorem powerEnv_eq (hn : (d.2.map Prod.fst).Nodup) {k : Name} {v : Variable Name}
    (h : (k, v) ∈ d.2) : PowerEnv d k = v := by
  unfold PowerEnv
  have := find?_eq_of_mem hn h
  simp only at this
  rw [this]

theorem PowerInv.child (h : PowerInv H B x0 w d L) {kM : Name × Cpm Name} (hm : kM ∈ d.1) :
    childNames kM.2 = [kM.1] := by
  obtain ⟨v, ps, e1, e2⟩ := (h.cpm kM hm).vars
  unfold childNames
  rw [(h.cpm kM hm).noChild, e1]
  simp [e2]

theorem PowerInv.childs (h : PowerInv H B x0 w d L) :
    (d.1.map Prod.snd).map childNames = d.1.map fun kM => [kM.1] := by
  rw [List.map_map]
  exact List.map_congr_left fun kM hkM => h.child hkM

theorem PowerInv.net (h : PowerInv H B x0 w d L) : NetOK (PowerEnv d) (d.1.map Prod.snd) where
  wf M hM := by
    obtain ⟨kM, hkM, rfl⟩ := List.mem_map.1 hM
    have hc := h.cpm kM hkM
    refine ⟨fun v hv => powerEnv_eq h.nodup (hc.known v hv),
      fun v hv => (h.var _ (hc.known v hv)).2.1, hc.nodup, fun r hr => (hc.rows r hr).1,
      fun r hr => (hc.rows r hr).2.2, hc.pLen, ?_, hc.noCs⟩
    obtain ⟨v, ps, e1, -⟩ := hc.vars
    rw [hc.noChild, e1]
    simp
  basic M hM := by
    obtain ⟨kM, hkM, rfl⟩ := List.mem_map.1 hM
    have hc := h.cpm kM hkM
    intro r hr
    rw [hc.noChild]
    exact (hc.rows r hr).2.1
  disjoint := by
    have hn : (d.1.map Prod.fst).Nodup := by rw [h.keys]; exact h.nodup
    unfold ChildDisjoint
    rw [List.pairwise_map]
    rw [List.Nodup, List.pairwise_map] at hn
    refine hn.imp_of_mem fun {a b} ha hb hab => ?_
    rw [h.child ha, h.child hb]
    intro k hk hk'
    exact hab ((List.mem_singleton.1 hk).symm.trans (List.mem_singleton.1 hk'))

/-- Variable elimination on the network. -/
theorem PowerInv.elimOK (h : PowerInv H B x0 w d L) {keep : List Name} (hne : keep ≠ [])
    (hkeep : ∀ k ∈ keep, k ∈ d.2.map Prod.fst) (hB : hazName ∈ d.2.map Prod.fst)
    {ve : List (Variable Name)}
    (hve : ve.Perm ((d.2.map Prod.snd).filter fun v => v.name ∉ keep)) :
    ElimOK (PowerEnv d) (d.1.map Prod.snd) ve := by
  have hnames : (d.2.map Prod.snd).map Variable.name = d.2.map Prod.fst := by
    rw [List.map_map]
    exact List.map_congr_left fun kv hkv => (h.var kv hkv).1
  have hmem : ∀ v ∈ ve, (v.name, v) ∈ d.2 ∧ v.name ∉ keep := by
    intro v hv
    obtain ⟨h1, h2⟩ := List.mem_filter.1 (hve.mem_iff.1 hv)
    obtain ⟨kv, hkv, rfl⟩ := List.mem_map.1 h1
    refine ⟨?_, by simpa using h2⟩
    rw [(h.var kv hkv).1]
    exact hkv
  have hne1 : d.1 ≠ [] := by
    intro e
    have := h.keys
    rw [e] at this
    rw [← this] at hB
    simp at hB
  refine ⟨h.net, by simpa using hne1, ?_, ⟨x0, ?_⟩, ?_, ?_, ?_, ?_⟩
  · intro M hM
    obtain ⟨kM, hkM, rfl⟩ := List.mem_map.1 hM
    obtain ⟨v, ps, e1, -⟩ := (h.cpm kM hkM).vars
    rw [e1]
    simp
  · intro M hM
    obtain ⟨kM, hkM, rfl⟩ := List.mem_map.1 hM
    exact (h.cpm kM hkM).cov
  · refine ((hve.map _).nodup_iff).2 ?_
    have hs : (((d.2.map Prod.snd).filter fun v => v.name ∉ keep).map Variable.name).Sublist
        ((d.2.map Prod.snd).map Variable.name) := List.filter_sublist.map _
    rw [hnames] at hs
    exact h.nodup.sublist hs
  · intro v hv
    exact powerEnv_eq h.nodup (hmem v hv).1
  · intro v hv
    have : v.name ∈ d.1.map Prod.fst := by
      rw [h.keys]
      exact List.mem_map.2 ⟨_, (hmem v hv).1, rfl⟩
    obtain ⟨kM, hkM, e⟩ := List.mem_map.1 this
    refine ⟨kM.2, List.mem_map_of_mem hkM, ?_⟩
    rw [h.child hkM, e]
    simp
  · intro v hv
    obtain ⟨q, hq⟩ := List.exists_mem_of_ne_nil _ hne
    refine ⟨q, fun hc => ?_, (h.linked v.name (List.mem_map.2 ⟨_, (hmem v hv).1, rfl⟩)).trans
      (share_reverse (h.linked q (hkeep q hq)))⟩
    obtain ⟨u, hu, e⟩ := List.mem_map.1 hc
    exact (hmem u hu).2 (e ▸ hq)

/-- Only the random variables and the kept ones are left. -/
theorem PowerInv.sum (h : PowerInv H B x0 w d L) {keep : List Name} (hkH : ∀ k ∈ keep, k ∈ H)
    (hkL : ∀ k ∈ keep, k ∈ L.map Prod.fst) {ve : List (Variable Name)}
    (hve : ve.Perm ((d.2.map Prod.snd).filter fun v => v.name ∉ keep))
    (hw : ∀ y y' : Name → ℕ, (∀ k ∈ B, y k = y' k) → w y = w y')
    (hG : ∀ kG ∈ L, ∀ y y' : Name → ℕ, (∀ k ∈ B, y k = y' k) →
      kG.2 (downOf y) = kG.2 (downOf y')) (x : Name → ℕ) :
    sumOver (ve.map fun v => (v.name, v.values.length)) (jointDens (d.1.map Prod.snd)) x =
      sumOver ((d.2.take B.length).map fun kv => (kv.1, kv.2.values.length))
        (fun z => w z * if ∀ kG ∈ L, kG.1 ∈ keep → z kG.1 = kG.2 (downOf z) then 1 else 0) x := by
  obtain ⟨VB, hVB⟩ : ∃ V, V = d.2.take B.length := ⟨_, rfl⟩
  obtain ⟨VL, hVL⟩ : ∃ V, V = d.2.drop B.length := ⟨_, rfl⟩
  have hd : d.2 = VB ++ VL := by rw [hVB, hVL, List.take_append_drop]
  have hBn : VB.map Prod.fst = B := by
    rw [hVB, List.map_take, h.order, List.take_left]
  have hLn : VL.map Prod.fst = L.map Prod.fst := by
    rw [hVL, List.map_drop, h.order, List.drop_left]
  have hnd := h.nodup
  rw [hd, List.map_append] at hnd
  obtain ⟨hndB, hndL, hBL⟩ := List.nodup_append.1 hnd
  have hkB : ∀ k ∈ keep, k ∉ B := fun k hk hc =>
    hBL k (hBn ▸ hc) k (hLn ▸ hkL k hk) rfl
  obtain ⟨lL, hlL⟩ : ∃ l, l = (VL.filter fun kv => kv.1 ∉ keep).map
    fun kv => (kv.1, kv.2.values.length) := ⟨_, rfl⟩
  have hperm : (ve.map fun v => (v.name, v.values.length)).Perm
      ((VB.map fun kv => (kv.1, kv.2.values.length)) ++ lL) := by
    refine (hve.map _).trans (List.Perm.of_eq ?_)
    have e1 : ((d.2.map Prod.snd).filter fun v => v.name ∉ keep).map
        (fun v => (v.name, v.values.length)) =
        (d.2.filter fun kv => kv.1 ∉ keep).map fun kv => (kv.1, kv.2.values.length) := by
      rw [List.filter_map, List.map_map]
      have e2 : d.2.filter ((fun v : Variable Name => decide (v.name ∉ keep)) ∘ Prod.snd) =
          d.2.filter fun kv => decide (kv.1 ∉ keep) := by
        refine List.filter_congr fun kv hkv => ?_
        rw [Function.comp, (h.var kv hkv).1]
      rw [e2]
      refine List.map_congr_left fun kv hkv => ?_
      rw [Function.comp, (h.var kv (List.mem_filter.1 hkv).1).1]
    rw [e1, hd, List.filter_append, List.map_append, hlL]
    congr 2
    rw [List.filter_eq_self]
    intro kv hkv
    have : kv.1 ∈ B := hBn ▸ List.mem_map_of_mem hkv
    simpa using fun hc => hkB _ hc this
  have hlLn : lL.map Prod.fst = (VL.map Prod.fst).filter fun k => k ∉ keep := by
    rw [hlL, List.map_map, List.filter_map]
    rfl
  have hlLnd : (lL.map Prod.fst).Nodup := by
    rw [hlLn]
    exact hndL.sublist List.filter_sublist
  have hBs : (VB.map fun kv => (kv.1, kv.2.values.length)).map Prod.fst = B := by
    rw [List.map_map, ← hBn]; rfl
  have hall : (((VB.map fun kv => (kv.1, kv.2.values.length)) ++ lL).map Prod.fst).Nodup := by
    rw [List.map_append, hBs]
    refine List.nodup_append.2 ⟨hBn ▸ hndB, hlLnd, fun a ha b hb => ?_⟩
    rw [hlLn] at hb
    exact hBL a (hBn ▸ ha) b (List.mem_filter.1 hb).1
  have hlB : ∀ k ∈ B, k ∉ lL.map Prod.fst := fun k hk hc => by
    rw [hlLn] at hc
    exact hBL k (hBn ▸ hk) k (List.mem_filter.1 hc).1 rfl
  have hlk : ∀ k ∈ keep, k ∉ lL.map Prod.fst := fun k hk hc => by
    rw [hlLn] at hc
    have := (List.mem_filter.1 hc).2
    simp [hk] at this
  rw [sumOver_perm hperm ((hperm.map Prod.fst).nodup_iff.2 hall), sumOver_append, ← hVB]
  refine sumOver_congr' _ (hBs ▸ hBn ▸ hndB) x fun z hz hzo => ?_
  -- the states of the other variables
  obtain ⟨c, hc⟩ : ∃ c : Name → ℕ, c = fun k =>
    ((L.find? fun kG => kG.1 = k).map fun kG => kG.2 (downOf z)).getD 0 := ⟨_, rfl⟩
  have hcL : ∀ kG ∈ L, c kG.1 = kG.2 (downOf z) := by
    intro kG hkG
    have := find?_eq_of_mem (d := L) (hLn ▸ hndL) hkG
    rw [hc]
    simp only
    rw [this]
    rfl
  have hcl : ∀ kn ∈ lL, c kn.1 < kn.2 := by
    intro kn hkn
    rw [hlL] at hkn
    obtain ⟨kv, hkv, rfl⟩ := List.mem_map.1 hkn
    have hkv' := (List.mem_filter.1 hkv).1
    have hm : kv.1 ∈ L.map Prod.fst := hLn ▸ List.mem_map_of_mem hkv'
    obtain ⟨kG, hkG, e⟩ := List.mem_map.1 hm
    simp only
    rw [← e, hcL kG hkG]
    refine h.bound kG hkG kv.2 ?_ _
    rw [e, hd]
    exact List.mem_append_right _ hkv'
  have key : sumOver lL (jointDens (d.1.map Prod.snd)) z =
      sumOver lL (fun y => (w y * if ∀ kG ∈ L, kG.1 ∈ keep → y kG.1 = kG.2 (downOf y) then 1 else 0) *
        if ∀ kn ∈ lL, y kn.1 = c kn.1 then 1 else 0) z := by
    refine sumOver_congr' _ hlLnd z fun y hy hyo => ?_
    have hyB : ∀ k ∈ B, y k = z k := fun k hk => hyo k (hlB k hk)
    rw [h.joint y ?_]
    · rw [mul_assoc]
      congr 1
      by_cases h1 : ∀ kn ∈ lL, y kn.1 = c kn.1
      · rw [if_pos h1, mul_one]
        refine if_congr ⟨fun ha kG hkG _ => ha kG hkG, fun ha kG hkG => ?_⟩ rfl rfl
        by_cases hk : kG.1 ∈ keep
        · exact ha kG hkG hk
        · have hm : kG.1 ∈ lL.map Prod.fst := by
            rw [hlLn, hLn]
            exact List.mem_filter.2 ⟨List.mem_map_of_mem hkG, by simpa using hk⟩
          obtain ⟨kn, hkn, e⟩ := List.mem_map.1 hm
          rw [← e, h1 kn hkn, e, hcL kG hkG]
          exact hG kG hkG _ _ fun k hk => (hyB k hk).symm
      · rw [if_neg h1, mul_zero, if_neg]
        refine fun ha => h1 fun kn hkn => ?_
        have hm : kn.1 ∈ L.map Prod.fst := by
          have := List.mem_map_of_mem (f := Prod.fst) hkn
          rw [hlLn, hLn] at this
          exact (List.mem_filter.1 this).1
        obtain ⟨kG, hkG, e⟩ := List.mem_map.1 hm
        rw [← e, ha kG hkG, hcL kG hkG]
        exact hG kG hkG _ _ hyB
    · intro kv hkv hkvH
      rw [hd] at hkv
      rcases List.mem_append.1 hkv with hkv | hkv
      · rw [hyB kv.1 (hBn ▸ List.mem_map_of_mem hkv)]
        exact hz (kv.1, kv.2.values.length) (List.mem_map.2 ⟨kv, hkv, rfl⟩)
      · refine hy (kv.1, kv.2.values.length) ?_
        rw [hlL]
        refine List.mem_map.2 ⟨kv, List.mem_filter.2 ⟨hkv, ?_⟩, rfl⟩
        simpa using fun hc => hkvH (hkH _ hc)
  rw [key, sumOver_mul_indep, sumOver_det lL hlLnd c hcl, mul_one]
  intro y y' hyy
  have hB' : ∀ k ∈ B, y k = y' k := fun k hk => hyy k (hlB k hk)
  rw [hw y y' hB']
  congr 1
  refine if_congr (forall₂_congr fun kG hkG => forall_congr' fun hk => ?_) rfl rfl
  rw [hyy _ (hlk _ hk), hG kG hkG y y' hB']

variable {haz : List (Name × ℚ)} {pfs : List (Name × List ℚ)} {rep : List Name}
  {lins : List (Name × List (List Name))}

theorem structProb_congr {y y' : Name → ℕ} (hz : y hazName = y' hazName)
    (h : ∀ sp ∈ pfs, y (xName sp.1) = y' (xName sp.1)) : structProb pfs y = structProb pfs y' := by
  unfold structProb
  rw [hz, List.map_congr_left fun sp hsp => by rw [h sp hsp]]

/-- The distribution of the kept houses. -/
theorem power_sum (h : PowerOK haz pfs rep lins) {keep : List Name}
    (hkeep : ∀ k ∈ keep, k ∈ lins.map Prod.fst) (x : Name → ℕ) :
    sumOver ((hazName, haz.length) :: pfs.map fun sp => (xName sp.1, 2))
      (fun z => ((haz.map Prod.snd).getD (z hazName) 0 * structProb pfs z) *
        if ∀ kG ∈ powerStates rep lins, kG.1 ∈ keep → z kG.1 = kG.2 (downOf z) then 1 else 0) x =
    damageProb haz pfs fun down => ∀ hs ∈ lins, hs.1 ∈ keep → x hs.1 = cutDays rep hs.2 down := by
  have hnames := h.names
  have hmL : ∀ hs ∈ lins, (hs.1, cutDays rep hs.2) ∈ powerStates rep lins := fun hs hhs =>
    List.mem_append_right _ (List.mem_flatMap.2 ⟨hs, hhs, self_mem_houseStates rep hs⟩)
  have hLnd : ((powerStates rep lins).map Prod.fst).Nodup := by
    rw [powerStates_names]
    have := (List.nodup_cons.1 hnames).2
    rw [List.append_assoc, List.append_assoc] at this
    rw [List.append_assoc]
    exact (List.nodup_append.1 this).2.1
  have hkB : ∀ k ∈ keep, k ≠ hazName ∧ ∀ sp ∈ pfs, k ≠ xName sp.1 := by
    intro k hk
    obtain ⟨hs, hhs, rfl⟩ := List.mem_map.1 (hkeep k hk)
    have hm : hs.1 ∈ lins.flatMap houseNames := List.mem_flatMap.2 ⟨hs, hhs, self_mem_houseNames hs⟩
    obtain ⟨h1, h2⟩ := List.nodup_cons.1 hnames
    refine ⟨fun e => h1 (e ▸ List.mem_append_right _ hm), fun sp hsp e => ?_⟩
    refine (List.nodup_append.1 h2).2.2 hs.1 ?_ hs.1 hm rfl
    rw [e]
    exact List.mem_append_left _ (List.mem_append_left _ (List.mem_map.2 ⟨sp, hsp, rfl⟩))
  have hzx : ∀ s : Name, xName s ≠ hazName := by
    intro s e
    simp [xName, hazName] at e
  have hE : ∀ z : Name → ℕ, (∀ kG ∈ powerStates rep lins, kG.1 ∈ keep → z kG.1 = kG.2 (downOf z)) ↔
      ∀ hs ∈ lins, hs.1 ∈ keep → z hs.1 = cutDays rep hs.2 (downOf z) := by
    intro z
    constructor
    · intro ha hs hhs hk
      exact ha _ (hmL hs hhs) hk
    · intro ha kG hkG hk
      obtain ⟨hs, hhs, e⟩ := List.mem_map.1 (hkeep _ hk)
      have := List.inj_on_of_nodup_map hLnd hkG (hmL hs hhs) e.symm
      rw [this]
      refine ha hs hhs ?_
      rw [e]
      exact hk
  have hcong : ∀ down down' : Name → Bool, (∀ s ∈ rep, down s = down' s) → ∀ hs ∈ lins,
      cutDays rep hs.2 down = cutDays rep hs.2 down' := fun down down' hd hs hhs =>
    cutDays_congr (fun set hset s hs' => ((h.links hs hhs).2 set hset).2.2 s hs') hd
  simp only [sumOver]
  unfold damageProb
  refine Finset.sum_congr rfl fun j _ => ?_
  rw [← sumOver_mul_left]
  have hl : (pfs.map fun sp => (xName sp.1, 2)) =
      (pfs.map fun sp : Name × List ℚ => (sp.1, 2)).map fun kn => (xName kn.1, kn.2) := by
    rw [List.map_map]; rfl
  rw [hl]
  obtain ⟨F, hF⟩ : ∃ F : (Name → ℕ) → ℚ, F = fun y => (haz.map Prod.snd).getD j 0 *
      ((pfs.map fun sp => if y sp.1 = 0 then sp.2.getD j 0 else 1 - sp.2.getD j 0).prod *
        if ∀ hs ∈ lins, hs.1 ∈ keep → x hs.1 = cutDays rep hs.2 (fun s => decide (y s = 0)) then 1
          else 0) := ⟨_, rfl⟩
  rw [← hF]
  have hbase : sumOver (pfs.map fun sp => (sp.1, 2)) F (fun _ => 0) =
      sumOver (pfs.map fun sp => (sp.1, 2)) F (fun s => x (xName s)) := by
    refine sumOver_base _ F (fun s => s ∈ pfs.map Prod.fst) (fun y y' hy => ?_) _ _ fun s hs hc => ?_
    · rw [hF]
      simp only
      congr 2
      · exact congrArg List.prod (List.map_congr_left fun sp hsp => by
          rw [hy sp.1 (List.mem_map_of_mem hsp)])
      · refine if_congr (forall₂_congr fun hs hhs => forall_congr' fun _ => ?_) rfl rfl
        rw [hcong _ (fun s => decide (y' s = 0)) (fun s hs' => by rw [hy s (h.repairs.2 s hs')]) hs hhs]
    · refine absurd ?_ hc
      rw [List.map_map]
      exact hs
  rw [hbase]
  refine sumOver_rename xName (fun z y => z hazName = j ∧ (∀ s, z (xName s) = y s) ∧
    ∀ k ∈ keep, z k = x k) (fun z y hzy => ?_) _ (fun kn hkn z y i hzy => ?_) _ _ ?_
  · obtain ⟨h1, h2, h3⟩ := hzy
    rw [hF]
    simp only
    rw [mul_assoc, h1]
    congr 2
    · unfold structProb
      rw [h1]
      simp only [h2]
    · refine if_congr ((hE z).trans (forall₂_congr fun hs hhs => forall_congr' fun hk => ?_)) rfl rfl
      rw [h3 _ hk]
      have : downOf z = fun s => decide (y s = 0) := by
        funext s
        rw [downOf_eq, h2]
      rw [this]
  · obtain ⟨h1, h2, h3⟩ := hzy
    obtain ⟨sp, hsp, rfl⟩ := List.mem_map.1 hkn
    refine ⟨?_, fun s => ?_, fun k hk => ?_⟩
    · rw [Function.update_of_ne (hzx _).symm, h1]
    · by_cases e : s = sp.1
      · subst e
        rw [Function.update_self, Function.update_self]
      · rw [Function.update_of_ne e, Function.update_of_ne (by simpa [xName] using e), h2]
    · rw [Function.update_of_ne ((hkB k hk).2 sp hsp), h3 k hk]
  · refine ⟨Function.update_self .., fun s => ?_, fun k hk => ?_⟩
    · rw [Function.update_of_ne (hzx s)]
    · rw [Function.update_of_ne (hkB k hk).1]

theorem power_elim (h : PowerOK haz pfs rep lins) :
    ∃ d, quantCpms haz pfs rep lins = .ok d ∧ ∀ keep : List Name, keep ≠ [] →
      (∀ k ∈ keep, k ∈ lins.map Prod.fst) →
      ∀ ve : List (Variable Name), ve.Perm ((d.2.map Prod.snd).filter fun v => v.name ∉ keep) →
      ∃ P, variableElim (d.1.map Prod.snd) ve = .ok P ∧ (∀ k, k ∈ P.getNames ↔ k ∈ keep) ∧
        ∀ x, dens P x = damageProb haz pfs fun down =>
          ∀ hs ∈ lins, hs.1 ∈ keep → x hs.1 = cutDays rep hs.2 down := by
  obtain ⟨d, vh, e1, e2, e3, e4, hI⟩ := quantCpms_inv h
  refine ⟨d, e1, fun keep hne hkeep ve hve => ?_⟩
  have hkL : ∀ k ∈ keep, k ∈ (powerStates rep lins).map Prod.fst := by
    intro k hk
    obtain ⟨hs, hhs, rfl⟩ := List.mem_map.1 (hkeep k hk)
    rw [powerStates_names]
    exact List.mem_append_right _ (List.mem_flatMap.2 ⟨hs, hhs, self_mem_houseNames hs⟩)
  have hkd : ∀ k ∈ keep, k ∈ d.2.map Prod.fst := fun k hk => by
    rw [hI.order]; exact List.mem_append_right _ (hkL k hk)
  obtain ⟨P, p1, -, -, p4, -, p6⟩ := C15_elimination_partial _ ve
    (hI.elimOK hne hkd (List.mem_map.2 ⟨_, e2, rfl⟩) hve)
  have hnames : ∀ k, k ∈ ve.map Variable.name ↔ k ∈ d.2.map Prod.fst ∧ k ∉ keep := by
    intro k
    rw [(hve.map _).mem_iff]
    constructor
    · intro hk
      obtain ⟨v, hv, rfl⟩ := List.mem_map.1 hk
      obtain ⟨h1, h2⟩ := List.mem_filter.1 hv
      obtain ⟨kv, hkv, rfl⟩ := List.mem_map.1 h1
      refine ⟨?_, by simpa using h2⟩
      rw [(hI.var kv hkv).1]
      exact List.mem_map_of_mem hkv
    · rintro ⟨h1, h2⟩
      obtain ⟨kv, hkv, rfl⟩ := List.mem_map.1 h1
      refine List.mem_map.2 ⟨kv.2, List.mem_filter.2 ⟨List.mem_map_of_mem hkv, ?_⟩, (hI.var kv hkv).1⟩
      rw [(hI.var kv hkv).1]
      simpa using h2
  refine ⟨P, p1, fun k => ?_, fun x => ?_⟩
  · rw [p6, hnames]
    constructor
    · rintro ⟨⟨M, hM, hk⟩, h2⟩
      by_contra hc
      refine h2 ⟨?_, hc⟩
      obtain ⟨kM, hkM, rfl⟩ := List.mem_map.1 hM
      obtain ⟨v, hv, rfl⟩ := List.mem_map.1 hk
      exact List.mem_map.2 ⟨_, (hI.cpm kM hkM).known v hv, rfl⟩
    · intro hk
      refine ⟨?_, fun hc => hc.2 hk⟩
      have hd := hkd k hk
      rw [← hI.keys] at hd
      obtain ⟨kM, hkM, rfl⟩ := List.mem_map.1 hd
      obtain ⟨v, ps, f1, f2⟩ := (hI.cpm kM hkM).vars
      refine ⟨kM.2, List.mem_map_of_mem hkM, ?_⟩
      unfold Cpm.getNames
      rw [f1, List.map_cons, f2]
      simp
  · have p4' : dens P x = sumOver (ve.map fun v => (v.name, v.values.length))
        (jointDens (d.1.map Prod.snd)) x := by
      rw [p4]
      congr 1
    rw [p4', hI.sum hkeep hkL hve ?_ ?_ x, ← power_sum h hkeep x]
    · congr 1
      -- the sizes of the random variables
      have hlen : (hazName :: pfs.map fun sp => xName sp.1).length = pfs.length + 1 := by simp
      have hB : (d.2.take (hazName :: pfs.map fun sp => xName sp.1).length).map Prod.fst =
          hazName :: pfs.map fun sp => xName sp.1 := by
        rw [List.map_take, hI.order, List.take_left]
      have hsz : ∀ kv ∈ d.2, (kv.1, kv.2.values.length) = (kv.1, (PowerEnv d kv.1).values.length) :=
        fun kv hkv => by rw [powerEnv_eq hI.nodup hkv]
      rw [List.map_congr_left fun kv hkv => hsz kv (List.mem_of_mem_take hkv)]
      have : (fun kv : Name × Variable Name => (kv.1, (PowerEnv d kv.1).values.length)) =
          (fun k => (k, (PowerEnv d k).values.length)) ∘ Prod.fst := rfl
      rw [this, ← List.map_map, hB, List.map_cons, powerEnv_eq hI.nodup e2, e3, List.map_map]
      congr 1
      refine List.map_congr_left fun sp hsp => ?_
      obtain ⟨v, hv, h2⟩ := e4 sp hsp
      rw [Function.comp, powerEnv_eq hI.nodup hv, h2]
    · intro y y' hy
      rw [hy hazName (by simp), structProb_congr (hy hazName (by simp)) fun sp hsp =>
        hy _ (List.mem_cons_of_mem _ (List.mem_map.2 ⟨sp, hsp, rfl⟩))]
    · intro kG hkG y y' hy
      refine powerStates_congr (fun hs hhs set hset s hs' =>
        ((h.links hs hhs).2 set hset).2.2 s hs') (fun s hs => ?_) kG hkG
      obtain ⟨sp, hsp, rfl⟩ := List.mem_map.1 (h.repairs.2 s hs)
      rw [downOf_eq, downOf_eq, hy _ (List.mem_cons_of_mem _ (List.mem_map.2 ⟨sp, hsp, rfl⟩))]

end BNS
