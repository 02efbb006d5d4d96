import Verif.Proofs.ElimInv
import Verif.Props.CpmMisc

/-! Lemmas for `cal_Msys_by_cond_VE`. -/

namespace BNS

set_option linter.unusedSectionVars false

section
variable {K : Type} [LinearOrder K] {U : K → Variable K}

theorem lookup_map_pair {α : Type} (g : K → α) (ks : List K) (k : K) :
    (ks.map fun k => (k, g k)).lookup k = if k ∈ ks then some (g k) else none := by
  induction ks with
  | nil => rfl
  | cons a ks ih =>
    rw [List.map_cons, List.lookup_cons, ih]
    by_cases h : k = a
    · subst h; simp
    · have h1 : (k == a) = false := by simpa using h
      rw [h1]
      simp [h]

theorem assocGet_map {α : Type} (g : K → α) (ks : List K) {k : K} {a : α}
    (h : assocGet (ks.map fun k => (k, g k)) k = .ok a) : k ∈ ks ∧ a = g k := by
  unfold assocGet at h
  rw [lookup_map_pair] at h
  by_cases hk : k ∈ ks
  · rw [if_pos hk] at h; cases h; exact ⟨hk, rfl⟩
  · rw [if_neg hk] at h; cases h

theorem joinComps_spec (g : K → Cpm K) : ∀ (xs ks : List K) {S S' : Cpm K} {d' : List (K × Cpm K)},
    joinComps xs S (ks.map fun k => (k, g k)) = .ok (S', d') →
    productList (S :: xs.map g) = .ok S' ∧
      d' = (ks.filter fun k => k ∉ xs).map fun k => (k, g k) := by
  intro xs
  induction xs with
  | nil =>
    intro ks S S' d' h
    cases h
    exact ⟨rfl, by simp⟩
  | cons x xs ih =>
    intro ks S S' d' h
    unfold joinComps at h
    obtain ⟨X, hX, h1⟩ := bind_ok.1 h
    obtain ⟨S1, hS1, h2⟩ := bind_ok.1 h1
    obtain ⟨-, rfl⟩ := assocGet_map g ks hX
    have hf : (ks.map fun k => (k, g k)).filter (fun km => km.1 ≠ x) =
        (ks.filter fun k => k ≠ x).map fun k => (k, g k) := by
      rw [List.filter_map]; rfl
    rw [hf] at h2
    obtain ⟨e1, e2⟩ := ih _ h2
    refine ⟨?_, ?_⟩
    · unfold productList at e1 ⊢
      simp only at e1 ⊢
      rw [List.map_cons, List.foldlM_cons, hS1, ok_bind]
      exact e1
    · rw [e2, List.filter_filter]
      congr 1
      refine List.filter_congr fun k _ => ?_
      simp only [List.mem_cons, not_or, Bool.decide_and, decide_not]
      rw [Bool.and_comm]

theorem assocGet_lookup {α : Type} {d : List (K × α)} {k : K} {a : α} (h : assocGet d k = .ok a) :
    d.lookup k = some a := by
  unfold assocGet at h
  cases e : d.lookup k with
  | none => rw [e] at h; cases h
  | some a' => rw [e] at h; cases h; rfl

theorem mapM_assocGet {α : Type} {d : List (K × α)} {ks : List K} {ms : List α}
    (hm : ks.mapM (assocGet d) = .ok ms) (S : α) :
    ms = ks.map (fun k => (d.lookup k).getD S) ∧
      ∀ k ∈ ks, d.lookup k = some ((d.lookup k).getD S) := by
  have hf := mapM_ok_forall₂ hm
  clear hm
  induction hf with
  | nil => simp
  | cons h1 _ ih =>
    have := assocGet_lookup h1
    obtain ⟨e1, e2⟩ := ih
    refine ⟨?_, fun k hk => ?_⟩
    · rw [e1, List.map_cons, this]; rfl
    · rcases List.mem_cons.1 hk with rfl | hk
      · rw [this]; rfl
      · exact e2 k hk

theorem mapM_varis {varis : List (K × Variable K)} {ks : List K} {vs : List (Variable K)}
    (hm : ks.mapM (assocGet varis) = .ok vs)
    (h : ∀ k ∈ ks, ∀ v, varis.lookup k = some v → v.name = k) : vs.map Variable.name = ks := by
  have hf := mapM_ok_forall₂ hm
  clear hm
  induction hf with
  | nil => rfl
  | cons h1 _ ih =>
    rw [List.map_cons, ih fun j hj => h j (by simp [hj]), h _ (by simp) _ (assocGet_lookup h1)]

theorem zip_map_pair {α : Type} (g : K → α) (ks : List K) :
    ks.zip (ks.map g) = ks.map fun k => (k, g k) := by
  induction ks with
  | nil => rfl
  | cons k ks ih => simp only [List.map_cons, List.zip_cons_cons, ih]

/-- The network as one row of the conditioning CPM meets it: the system, the components that stay
(`J`), those that are summed out (`E`) and the variables eliminated before (`W`). -/
structure RowNet (U : K → Variable K) (N : K → Cpm K) (keys : List K) (sys : K) (W E J : List K)
    (Mc : Cpm K) : Prop where
  split : keys.Perm (sys :: (J ++ (E ++ W)))
  nodup : keys.Nodup
  wf : ∀ k ∈ keys, WF U (N k)
  basic : ∀ k ∈ keys, ChildBasic (N k)
  rows : ∀ k ∈ keys, RowsDisjoint (N k)
  child : ∀ k ∈ keys, childNames (N k) = [k]
  full : ∀ k ∈ keys, k ≠ sys → ∀ x, (∀ j ∈ (N k).getNames, x j < (U j).values.length) →
    Covers (N k) x
  pos : ∀ k ∈ keys, (U k).values ≠ []
  mc : WF U Mc
  mcChild : ∀ k ∈ Mc.getNames, k ∈ childNames Mc
  mcBasic : ChildBasic Mc
  mcRows : RowsDisjoint Mc
  disj : ∀ k ∈ keys, k ∉ Mc.getNames
  pSys : ∀ k, k ∈ parentNames (N sys) ↔ k ∈ E ∨ k ∈ J
  pJ : ∀ j ∈ J, ∀ k ∈ parentNames (N j), k ∈ Mc.getNames
  pEW : ∀ j ∈ E ++ W, ∀ k ∈ parentNames (N j), k ∈ W ∨ k ∈ Mc.getNames

variable {N : K → Cpm K} {keys : List K} {sys : K} {W E J : List K} {Mc : Cpm K}

theorem RowNet.mcCol (h : RowNet U N keys sys W E J Mc) {cx : List ℕ} (hcx : cx ∈ Mc.C) {w : Variable K}
    (hw : w ∈ Mc.vars) : val Mc.getNames cx w.name < w.values.length := by
  have hw' : w ∈ Mc.vars.take Mc.noChild := by
    obtain ⟨u, hu, hue⟩ := List.mem_map.1 (h.mcChild _ (List.mem_map_of_mem hw))
    have : u = w := by
      rw [← h.mc.env u (List.mem_of_mem_take hu), ← h.mc.env w hw, hue]
    rw [← this]; exact hu
  exact (childBasic_iff h.mc).1 h.mcBasic cx hcx w hw'

theorem RowNet.names (h : RowNet U N keys sys W E J Mc) {k : K} (hk : k ∈ keys) : (U k).name = k := by
  have : k ∈ childNames (N k) := by rw [h.child k hk]; simp
  obtain ⟨w, hw, rfl⟩ := List.mem_map.1 this
  rw [(h.wf _ hk).env w (List.mem_of_mem_take hw)]

theorem RowNet.consistent (h : RowNet U N keys sys W E J Mc) {cx : List ℕ} (hcx : cx ∈ Mc.C)
    (names : List K) (x : K → ℕ) : Consistent names Mc.vars cx x ↔
      ∀ k ∈ Mc.getNames, k ∈ names → x k = val Mc.getNames cx k := by
  have := zip_forall_iff h.mc.nodup (h.mc.rowLen cx hcx)
    (fun v s => v.name ∈ names → x v.name ∈ stateSet v s)
  unfold Consistent
  rw [this]
  constructor
  · intro hh k hk hkn
    obtain ⟨v, hv, rfl⟩ := List.mem_map.1 hk
    have := hh v hv hkn
    rw [show Mc.vars.map Variable.name = Mc.getNames from rfl,
      stateSet_basic (h.mc.table v hv) (h.mcCol hcx hv), Finset.mem_singleton] at this
    exact this
  · intro hh v hv hvn
    rw [show Mc.vars.map Variable.name = Mc.getNames from rfl,
      stateSet_basic (h.mc.table v hv) (h.mcCol hcx hv), Finset.mem_singleton]
    exact hh _ (List.mem_map_of_mem hv) hvn

theorem RowNet.matches (h : RowNet U N keys sys W E J Mc) {cx : List ℕ} (hcx : cx ∈ Mc.C)
    (x : K → ℕ) : RowMatches Mc.vars cx x ↔ ∀ k ∈ Mc.getNames, x k = val Mc.getNames cx k := by
  rw [rowMatches_iff h.mc.nodup (h.mc.rowLen cx hcx)]
  constructor
  · intro hh k hk
    obtain ⟨v, hv, rfl⟩ := List.mem_map.1 hk
    have := hh v hv
    rw [show Mc.vars.map Variable.name = Mc.getNames from rfl,
      stateSet_basic (h.mc.table v hv) (h.mcCol hcx hv), Finset.mem_singleton] at this
    exact this
  · intro hh v hv
    rw [show Mc.vars.map Variable.name = Mc.getNames from rfl,
      stateSet_basic (h.mc.table v hv) (h.mcCol hcx hv), Finset.mem_singleton]
    exact hh _ (List.mem_map_of_mem hv)

/-- The conditioning CPM conditioned on one of its rows. -/
theorem RowNet.self (h : RowNet U N keys sys W E J Mc) {cx : List ℕ} (hcx : cx ∈ Mc.C) :
    WF U (condPure Mc Mc.vars cx) ∧
    (∀ x, Covers (condPure Mc Mc.vars cx) x → ∀ k ∈ Mc.getNames, x k = val Mc.getNames cx k) ∧
    (∀ r ∈ (condPure Mc Mc.vars cx).C, r = cx) ∧
    ∀ x, dens (condPure Mc Mc.vars cx) x = if RowMatches Mc.vars cx x then dens Mc x else 0 := by
  have he := evidence_row (U := U) h.mc hcx Mc.getNames
  have hwf := condPure_WF h.mc he h.mc.nodup
  have hcov : ∀ x, Covers (condPure Mc Mc.vars cx) x →
      ∀ k ∈ Mc.getNames, x k = val Mc.getNames cx k := by
    intro x hx k hk
    have := ((condPure_covers h.mc he h.mc.nodup x).1 hx).1
    exact (h.consistent hcx _ x).1 this k hk hk
  refine ⟨hwf, hcov, fun r hr => ?_, fun x => ?_⟩
  · refine row_ext (ns := Mc.getNames) h.mc.nodup (by rw [hwf.rowLen r hr]; simp [Cpm.getNames, condPure])
      (by rw [h.mc.rowLen cx hcx]; simp [Cpm.getNames]) fun k hk => ?_
    obtain ⟨w, hw, rfl⟩ := List.mem_map.1 hk
    exact col_val (c := fun k => val Mc.getNames cx k) hwf hw (h.mcCol hcx hw)
      (fun x hx => hcov x hx _ hk) hr
  · rw [dens_condPure h.mc he h.mc.nodup]
    have : Consistent Mc.getNames Mc.vars cx x ↔ RowMatches Mc.vars cx x := by
      rw [h.consistent hcx, h.matches hcx]
      exact forall₂_congr fun k hk => by simp [hk]
    simp only [this]

/-- The CPMs of the network conditioned on a row. -/
theorem RowNet.cond (h : RowNet U N keys sys W E J Mc) {cx : List ℕ} (hcx : cx ∈ Mc.C) {k : K}
    (hk : k ∈ keys) :
    WF U (condPure (N k) Mc.vars cx) ∧ ChildBasic (condPure (N k) Mc.vars cx) ∧
    RowsDisjoint (condPure (N k) Mc.vars cx) ∧
    (∀ x, Covers (condPure (N k) Mc.vars cx) x ↔
      (∀ j ∈ Mc.getNames, j ∈ (N k).getNames → x j = val Mc.getNames cx j) ∧ Covers (N k) x) ∧
    ∀ x, RowMatches Mc.vars cx x → dens (condPure (N k) Mc.vars cx) x = dens (N k) x := by
  have he := evidence_row (U := U) h.mc hcx (N k).getNames
  refine ⟨condPure_WF (h.wf k hk) he h.mc.nodup,
    condPure_childBasic (h.wf k hk) he h.mc.nodup (h.basic k hk),
    condPure_disjoint (h.wf k hk) he h.mc.nodup (h.rows k hk), fun x => ?_, fun x hx => ?_⟩
  · rw [condPure_covers (h.wf k hk) he h.mc.nodup, h.consistent hcx]
  · rw [dens_condPure (h.wf k hk) he h.mc.nodup, if_pos]
    rw [h.consistent hcx]
    exact fun j hj _ => (h.matches hcx x).1 hx j hj

theorem childDisjoint_keys {g : K → Cpm K} {l : List K} (hn : l.Nodup)
    (hc : ∀ k ∈ l, childNames (g k) = [k]) : ChildDisjoint (l.map g) := by
  unfold ChildDisjoint
  rw [List.pairwise_map]
  refine List.Pairwise.imp_of_mem ?_ hn
  intro a b ha hb hab k hk hk'
  rw [hc a ha, List.mem_singleton] at hk
  rw [hc b hb, List.mem_singleton] at hk'
  exact hab (hk.symm.trans hk')

theorem flatMap_childNames {g : K → Cpm K} {l : List K} (hc : ∀ k ∈ l, childNames (g k) = [k]) :
    (l.map g).flatMap childNames = l := by
  rw [List.flatMap_map]
  rw [List.flatMap_congr (g := fun k => [k]) hc]
  simp

/-- Everything about the components that the elimination of `W` leaves. -/
theorem RowNet.comps (h : RowNet U N keys sys W E J Mc) {cx : List ℕ} (hcx : cx ∈ Mc.C)
    {l2 comps : List (Cpm K)} {veVars : List (Variable K)} (hW : veVars.map Variable.name = W)
    (hl2 : l2.Perm ((E ++ W).map fun k => condPure (N k) Mc.vars cx))
    (hE : variableElimList l2 veVars = .ok comps) :
    NetOK U comps ∧ (comps.flatMap childNames).Perm E ∧
    (∀ x, jointDens comps x = sumOver (sizes U W) (jointDens l2) x) ∧
    (∀ m ∈ comps, m.noChild = 1 → ∃ v cv, CompOK U v cv (cv.map fun w => val Mc.getNames cx w.name) m) ∧
    (∀ m ∈ comps, ∀ k ∈ parentNames m, k ∈ Mc.getNames) ∧
    ∀ m ∈ comps, m.C ≠ [] := by
  set c := fun k => val Mc.getNames cx k with hcdef
  have hkeys : ∀ k ∈ E ++ W, k ∈ keys := fun k hk =>
    h.split.mem_iff.2 (List.mem_cons_of_mem _ (List.mem_append_right _ hk))
  have hnd : (E ++ W).Nodup := by
    have := (h.split.nodup_iff).1 h.nodup
    rw [List.nodup_cons, List.nodup_append] at this
    exact this.2.2.1
  have hsys : ∀ k ∈ E ++ W, k ≠ sys := by
    intro k hk e
    have := (h.split.nodup_iff).1 h.nodup
    rw [List.nodup_cons] at this
    exact this.1 (List.mem_append_right _ (e ▸ hk))
  have hchild : ∀ k ∈ E ++ W, childNames (condPure (N k) Mc.vars cx) = [k] :=
    fun k hk => h.child k (hkeys k hk)
  have hmem : ∀ M, M ∈ l2 ↔ ∃ k ∈ E ++ W, condPure (N k) Mc.vars cx = M := by
    intro M; rw [hl2.mem_iff, List.mem_map]
  have hnet : NetOK U l2 := by
    refine ⟨?_, ?_, childDisjoint_perm hl2.symm (childDisjoint_keys hnd hchild)⟩
    · intro M hM
      obtain ⟨k, hk, rfl⟩ := (hmem M).1 hM
      exact (h.cond hcx (hkeys k hk)).1
    · intro M hM
      obtain ⟨k, hk, rfl⟩ := (hmem M).1 hM
      exact (h.cond hcx (hkeys k hk)).2.1
  have hWn : (veVars.map Variable.name).Nodup := by rw [hW]; exact (List.nodup_append.1 hnd).2.1
  have hve : ∀ v ∈ veVars, ∃ M ∈ l2, v.name ∈ childNames M := by
    intro v hv
    have : v.name ∈ E ++ W := List.mem_append_right _ (hW ▸ List.mem_map_of_mem hv)
    exact ⟨_, (hmem _).2 ⟨_, this, rfl⟩, by rw [hchild _ this]; simp⟩
  have hinv : ∀ M ∈ l2, ElimInv (fun k => k ∈ W ∨ k ∈ Mc.getNames) Mc.getNames c M := by
    intro M hM
    obtain ⟨k, hk, rfl⟩ := (hmem M).1 hM
    obtain ⟨w1, -, w3, w4, -⟩ := h.cond hcx (hkeys k hk)
    exact ⟨rowsDisjoint_nodup w1 w3, fun j hj => h.pEW k hk j hj,
      fun x hx j hj hjn => ((w4 x).1 hx).1 j hj hjn⟩
  obtain ⟨f1, f2, f3, f4⟩ := elimList_of_ok veVars hnet hWn hve hE
  obtain ⟨i1, i2⟩ := elimList_inv veVars hnet hWn hve hE hinv
  have hch : (comps.flatMap childNames).Perm E := by
    refine f3.trans ?_
    have h1 : (l2.flatMap childNames).Perm (E ++ W) := by
      refine (hl2.flatMap_right _).trans ?_
      rw [flatMap_childNames hchild]
    refine (h1.filter _).trans ?_
    rw [hW, List.filter_append]
    have e1 : W.filter (fun k => decide (k ∉ W)) = [] := by
      rw [List.filter_eq_nil_iff]; simp
    have e2 : E.filter (fun k => decide (k ∉ W)) = E := by
      rw [List.filter_eq_self]
      intro k hk
      rw [decide_eq_true_iff]
      exact fun hkW => (List.nodup_append.1 hnd).2.2 k hk k hkW rfl
    rw [e1, e2, List.append_nil]
  have hpar : ∀ m ∈ comps, ∀ k ∈ parentNames m, k ∈ Mc.getNames := by
    intro m hm k hk
    rcases (i1 m hm).par k hk with hkW | hk'
    · exfalso
      refine ((f4 k).1 ⟨m, hm, ?_⟩).2 (hW ▸ hkW)
      rw [getNames_eq]; exact List.mem_append_right _ hk
    · exact hk'
  have hc : ∀ k ∈ Mc.getNames, c k < (U k).values.length := by
    intro k hk
    obtain ⟨w, hw, rfl⟩ := List.mem_map.1 hk
    rw [h.mc.env w hw]
    exact h.mcCol hcx hw
  -- an assignment in range that agrees with the row is covered
  have hcov : ∀ x : K → ℕ, (∀ k ∈ E ++ W, x k < (U k).values.length) →
      (∀ k ∈ Mc.getNames, x k = c k) → ∀ m ∈ comps, Covers m x := by
    intro x hx1 hx2
    refine i2 x fun M hM => ?_
    obtain ⟨k, hk, rfl⟩ := (hmem M).1 hM
    rw [(h.cond hcx (hkeys k hk)).2.2.2.1]
    refine ⟨fun j hj _ => hx2 j hj, h.full k (hkeys k hk) (hsys k hk) x fun j hj => ?_⟩
    rw [getNames_eq, h.child k (hkeys k hk), List.mem_append, List.mem_singleton] at hj
    rcases hj with rfl | hj
    · exact hx1 j hk
    · rcases h.pEW k hk j hj with hj | hj
      · exact hx1 j (List.mem_append_right _ hj)
      · rw [hx2 j hj]; exact hc j hj
  let x0 : K → ℕ := fun k => if k ∈ Mc.getNames then c k else 0
  have hx0 : ∀ k ∈ E ++ W, x0 k < (U k).values.length := by
    intro k hk
    have : k ∉ Mc.getNames := h.disj k (hkeys k hk)
    simp only [x0, if_neg this]
    exact List.length_pos_of_ne_nil (h.pos k (hkeys k hk))
  have hx0c : ∀ k ∈ Mc.getNames, x0 k = c k := fun k hk => by simp only [x0, if_pos hk]
  refine ⟨f1, hch, fun x => ?_, fun m hm hm1 => ?_, hpar, fun m hm => ?_⟩
  · rw [f2]
    congr 1
    unfold sizes
    rw [← hW, List.map_map]
    rfl
  · have hwf := f1.wf m hm
    cases hv : m.vars with
    | nil =>
      have := hwf.child
      rw [hv, hm1] at this
      simp at this
    | cons v cv =>
      refine ⟨v, cv, compOK_of_inv (c := c) hwf (f1.basic m hm) (i1 m hm) hm1 (hpar m hm) hc hv ?_⟩
      intro i hi
      have hvE : v.name ∈ E := by
        refine hch.mem_iff.1 (List.mem_flatMap.2 ⟨m, hm, ?_⟩)
        unfold childNames
        rw [hm1, hv]; simp
      have hvm : v ∈ m.vars := by rw [hv]; simp
      refine ⟨Function.update x0 v.name i, hcov _ (fun k hk => ?_) (fun k hk => ?_) m hm,
        Function.update_self _ _ _⟩
      · by_cases e : k = v.name
        · subst e
          rw [Function.update_self, hwf.env v hvm]; exact hi
        · rw [Function.update_of_ne e]; exact hx0 k hk
      · have e : k ≠ v.name := fun e =>
          h.disj v.name (hkeys _ (List.mem_append_left _ hvE)) (e ▸ hk)
        rw [Function.update_of_ne e]; exact hx0c k hk
  · obtain ⟨r, hr, -⟩ := hcov x0 hx0 hx0c m hm
    exact List.ne_nil_of_mem hr

theorem getVariables_inv {M : Cpm K} {names : List K} {vs : List (Variable K)}
    (h : M.getVariables names = .ok vs) : vs.map Variable.name = names ∧
      ∀ k ∈ names, k ∈ M.getNames := by
  have hall : ∀ k ∈ names, k ∈ M.getNames := by
    by_contra hn
    push Not at hn
    rw [(C55_get_variables M names).2 hn] at h
    cases h
  obtain ⟨vs', e1, -, e3⟩ := (C55_get_variables M names).1 hall
  rw [h] at e1
  cases e1
  exact ⟨e3, hall⟩

theorem noChild_of_prodMsys {S P : Cpm K} {comps : List (Cpm K)}
    (h : prodMsysMcomps S comps = .ok P) : ∀ m ∈ comps, m.noChild = 1 := by
  unfold prodMsysMcomps at h
  obtain ⟨_, h1, -⟩ := bind_ok.1 h
  by_contra hn
  rw [pyAssert_false hn] at h1
  cases h1

theorem comps_ne_of_prodMsys {S P : Cpm K} {comps : List (Cpm K)}
    (h : prodMsysMcomps S comps = .ok P) : comps ≠ [] := by
  rintro rfl
  obtain ⟨-, c, hc⟩ := condScope_of_prod h
  cases hc

theorem sizes_vars {l : List (Variable K)} (h : ∀ v ∈ l, U v.name = v) :
    (l.map fun v => (v.name, v.values.length)) = sizes U (l.map Variable.name) := by
  unfold sizes
  rw [List.map_map]
  refine List.map_congr_left fun v hv => ?_
  simp only [Function.comp, h v hv]

theorem nodup_names {M : Cpm K} (h : WF U M) {k : K} (hc : k ∈ childNames M)
    (hp : k ∈ parentNames M) : False := by
  have hd := h.nodup
  rw [show M.vars.map Variable.name = childNames M ++ parentNames M from getNames_eq M,
    List.nodup_append] at hd
  exact hd.2.2 k hc k hp rfl

/-- The system CPM with the components, for one row of the conditioning CPM, before the product with
the conditioning CPM: the sum over the components. -/
theorem RowNet.system (h : RowNet U N keys sys W E J Mc) {cx : List ℕ} (hcx : cx ∈ Mc.C)
    {l2 comps : List (Cpm K)} {veVars : List (Variable K)} (hW : veVars.map Variable.name = W)
    (hl2 : l2.Perm ((E ++ W).map fun k => condPure (N k) Mc.vars cx))
    (hE : variableElimList l2 veVars = .ok comps) {S P : Cpm K}
    (hS : productList (condPure (N sys) Mc.vars cx :: J.map fun k => condPure (N k) Mc.vars cx) = .ok S)
    (hP : prodMsysMcomps S comps = .ok P) {ev : List (Variable K)} (hev : ev.map Variable.name = E)
    {Q : Cpm K} (hQ : P.sum ev true = .ok Q) :
    WF U Q ∧ (childNames Q).Perm (sys :: J) ∧ (∀ k ∈ parentNames Q, k ∈ Mc.getNames) ∧
    ∀ x, RowMatches Mc.vars cx x → dens Q x = sumOver (sizes U (E ++ W)) (jointDens (keys.map N)) x := by
  classical
  set N' : K → Cpm K := fun k => condPure (N k) Mc.vars cx with hN'
  have hnd := (h.split.nodup_iff).1 h.nodup
  rw [List.nodup_cons, List.nodup_append] at hnd
  obtain ⟨hs0, hJn, hEWn, hJE⟩ := hnd
  have hsysk : sys ∈ keys := h.split.mem_iff.2 (by simp)
  have hJk : ∀ k ∈ J, k ∈ keys := fun k hk => h.split.mem_iff.2 (by simp [hk])
  have hEWk : ∀ k ∈ E ++ W, k ∈ keys := fun k hk =>
    h.split.mem_iff.2 (List.mem_cons_of_mem _ (List.mem_append_right _ hk))
  have hEk : ∀ k ∈ E, k ∈ keys := fun k hk => hEWk k (List.mem_append_left _ hk)
  have hSJk : ∀ k ∈ sys :: J, k ∈ keys := by
    intro k hk
    rcases List.mem_cons.1 hk with rfl | hk
    · exact hsysk
    · exact hJk k hk
  have hSJn : (sys :: J).Nodup := List.nodup_cons.2 ⟨fun hj => hs0 (List.mem_append_left _ hj), hJn⟩
  have hSJE : ∀ k ∈ sys :: J, k ∉ E ++ W := by
    intro k hk hk'
    rcases List.mem_cons.1 hk with rfl | hk
    · exact hs0 (List.mem_append_right _ hk')
    · exact hJE k hk k hk' rfl
  have hchild : ∀ k ∈ keys, childNames (N' k) = [k] := fun k hk => h.child k hk
  -- the system with the components that stay
  have hSs : ProdSpec U ((sys :: J).map N') S := by
    refine productList_ok ?_ (childDisjoint_keys hSJn fun k hk => hchild k (hSJk k hk)) hS
    intro M hM
    obtain ⟨k, hk, rfl⟩ := List.mem_map.1 hM
    exact (h.cond hcx (hSJk k hk)).1
  have hSchild : (childNames S).Perm (sys :: J) := by
    refine hSs.child.trans ?_
    rw [flatMap_childNames fun k hk => hchild k (hSJk k hk)]
  have hSpar : ∀ k, k ∈ parentNames S → k ∈ E ∨ k ∈ Mc.getNames := by
    have h1 := prod_par (A := fun k => (k ∈ E ∨ k ∈ J) ∨ k ∈ Mc.getNames) hSs (by
      intro M hM k hk
      obtain ⟨j, hj, rfl⟩ := List.mem_map.1 hM
      rcases List.mem_cons.1 hj with rfl | hj
      · exact .inl ((h.pSys k).1 hk)
      · exact .inr (h.pJ j hj k hk))
    intro k hk
    rcases h1 k hk with (h2 | h2) | h2
    · exact .inl h2
    · exact absurd hk fun hk => nodup_names hSs.wf (hSchild.mem_iff.2 (by simp [h2])) hk
    · exact .inr h2
  have hEpar : ∀ k ∈ E, k ∈ parentNames S := by
    intro k hk
    have : k ∈ S.getNames := (hSs.names k).2 ⟨N' sys, by simp, by
      rw [getNames_eq]
      exact List.mem_append_right _ ((h.pSys k).2 (.inl hk))⟩
    rw [getNames_eq, List.mem_append] at this
    rcases this with h1 | h1
    · exact absurd (List.mem_append_left W hk) (hSJE k (hSchild.mem_iff.1 h1))
    · exact h1
  -- the components
  obtain ⟨c1, c2, c3, c4, c5, c6⟩ := h.comps hcx hW hl2 hE
  have hno := noChild_of_prodMsys hP
  have hcne := comps_ne_of_prodMsys hP
  have hmE : ∀ m ∈ comps, ∀ k ∈ childNames m, k ∈ E := fun m hm k hk =>
    c2.mem_iff.1 (List.mem_flatMap.2 ⟨m, hm, hk⟩)
  have hEm : ∀ k ∈ E, ∃ m ∈ comps, k ∈ childNames m := fun k hk =>
    List.mem_flatMap.1 (c2.mem_iff.2 hk)
  have huniq : ∀ m ∈ comps, ∀ m' ∈ comps, ∀ k, k ∈ childNames m → k ∈ childNames m' → m = m' := by
    intro m hm m' hm' k hk hk'
    by_contra hne
    have : Std.Symm fun A B : Cpm K => ∀ k ∈ childNames A, k ∉ childNames B :=
      ⟨fun a b hab j hj hj' => hab j hj' hj⟩
    exact c1.disjoint.forall hm hm' hne k hk hk'
  let D : K → Cpm K := fun k => if hk : ∃ m ∈ comps, k ∈ childNames m then hk.choose else S
  have hD : ∀ m ∈ comps, ∀ k ∈ childNames m, D k = m := by
    intro m hm k hk
    have hex : ∃ m ∈ comps, k ∈ childNames m := ⟨m, hm, hk⟩
    simp only [D, dif_pos hex]
    exact huniq _ hex.choose_spec.1 m hm k hex.choose_spec.2 hk
  have hone : ∀ m ∈ comps, ∃ k, childNames m = [k] := by
    intro m hm
    obtain ⟨v, cv, hv⟩ := c4 m hm (hno m hm)
    exact ⟨_, hv.childNames⟩
  have hmix : MixedOK U S comps D := by
    refine ⟨hSs.wf, ?_, hcne, fun m hm => ?_, c6, ?_, hD, ?_, ?_⟩
    · have h1 : sys ∈ childNames S := hSchild.mem_iff.2 (by simp)
      unfold childNames at h1
      by_contra h0
      have : S.noChild = 0 := by omega
      rw [this] at h1
      simp at h1
    · obtain ⟨v, cv, hv⟩ := c4 m hm (hno m hm)
      exact ⟨v, cv, _, hv⟩
    · unfold List.Nodup
      rw [List.pairwise_map]
      refine List.Pairwise.imp_of_mem ?_ c1.disjoint
      intro a b ha hb hab e
      obtain ⟨k, hk⟩ := hone a ha
      exact hab k (by rw [hk]; simp) (by rw [← e, hk]; simp)
    · intro m hm k hk hk'
      exact hSJE k (hSchild.mem_iff.1 hk') (List.mem_append_left _ (hmE m hm k hk))
    · intro m hm k hk
      have hkc := c5 m hm k hk
      exact ⟨fun hk' => h.disj k (hSJk k (hSchild.mem_iff.1 hk')) hkc,
        fun m' hm' hk' => h.disj k (hEk k (hmE m' hm' k hk')) hkc⟩
  obtain ⟨Q', q1, q2, q3, q4, q5, q6⟩ := prodMsys_marginal hmix hP
  -- the components summed out
  have hcp : ∀ k, k ∈ (compPars S comps).map Variable.name ↔ k ∈ E := by
    intro k
    constructor
    · intro hk
      obtain ⟨v, hv, rfl⟩ := List.mem_map.1 hk
      obtain ⟨m, hm, hmc⟩ := of_decide_eq_true (List.mem_filter.1 hv).2
      exact hmE m hm _ hmc
    · intro hk
      obtain ⟨v, hv, rfl⟩ := List.mem_map.1 (hEpar k hk)
      refine List.mem_map_of_mem (List.mem_filter.2 ⟨hv, ?_⟩)
      rw [decide_eq_true_iff]
      exact hEm _ hk
  have hcpn : ((compPars S comps).map Variable.name).Nodup :=
    hSs.wf.nodup.sublist ((List.filter_sublist.trans (List.drop_sublist _ _)).map _)
  have hEn : E.Nodup := (List.nodup_append.1 hEWn).1
  have hcpp : ((compPars S comps).map Variable.name).Perm E :=
    (List.perm_ext_iff_of_nodup hcpn hEn).2 hcp
  rw [sum_congr_names q2 (ws := compPars S comps) (fun k => by rw [hcp, hev]), q1] at hQ
  cases hQ
  refine ⟨q3, q4 ▸ hSchild, fun k hk => ?_, fun x hx => ?_⟩
  · rcases q5 k hk with h1 | ⟨m, hm, h1⟩
    · obtain ⟨v, hv, rfl⟩ := List.mem_map.1 h1
      obtain ⟨hv1, hv2⟩ := List.mem_filter.1 hv
      rcases hSpar _ (List.mem_map_of_mem hv1) with h2 | h2
      · obtain ⟨m, hm, hmc⟩ := hEm _ h2
        exact absurd hmc (of_decide_eq_true hv2 m hm)
      · exact h2
    · exact c5 m hm k h1
  · have hmat : ∀ y : K → ℕ, (∀ k, k ∉ E ++ W → y k = x k) → RowMatches Mc.vars cx y := by
      intro y hy
      refine (rowMatches_congr fun k hk => ?_).1 hx
      refine (hy k fun hk' => ?_).symm
      exact h.disj k (hEWk k hk') hk
    rw [q6 x (fun m hm c hc => ?_)]
    · rw [sizes_vars (l := compPars S comps) fun v hv => hSs.wf.env v (List.mem_of_mem_drop (List.mem_filter.1 hv).1)]
      have hperm : (sizes U ((compPars S comps).map Variable.name)).Perm (sizes U E) := hcpp.map _
      rw [sumOver_perm hperm (by rw [sizes_fst]; exact hcpn)]
      have happ : sizes U (E ++ W) = sizes U E ++ sizes U W := by unfold sizes; rw [List.map_append]
      rw [happ, sumOver_append]
      refine sumOver_congr' _ (by rw [sizes_fst]; exact hEn) x fun y _ hy => ?_
      rw [sizes_fst] at hy
      have e1 : ((compPars S comps).map fun v => dens (D v.name) y).prod = jointDens comps y := by
        have hp1 : ((compPars S comps).map Variable.name).Perm (comps.flatMap childNames) :=
          hcpp.trans c2.symm
        have hp2 : (comps.flatMap childNames).map D = comps := by
          have : ∀ l : List (Cpm K), (∀ m ∈ l, m ∈ comps) → (l.flatMap childNames).map D = l := by
            intro l
            induction l with
            | nil => intro _; rfl
            | cons m l ih =>
              intro hl
              obtain ⟨k, hk⟩ := hone m (hl m (by simp))
              rw [List.flatMap_cons, List.map_append, ih fun m' hm' => hl m' (by simp [hm']), hk]
              simp [hD m (hl m (by simp)) k (by rw [hk]; simp)]
          exact this comps fun m hm => hm
        have hp3 := hp1.map D
        rw [hp2, List.map_map] at hp3
        have := (hp3.map fun M => dens M y).prod_eq
        rw [List.map_map] at this
        exact this
      rw [e1, c3, ← sumOver_mul_indep (sizes U W) (jointDens l2) (dens S) y]
      · refine sumOver_congr' _ (by rw [sizes_fst]; exact (List.nodup_append.1 hEWn).2.1) y
          fun z _ hz => ?_
        rw [sizes_fst] at hz
        have hzm : RowMatches Mc.vars cx z := hmat z fun k hk => by
          rw [List.mem_append, not_or] at hk
          rw [hz k hk.2, hy k hk.1]
        have hk : jointDens (keys.map N) z = jointDens ((sys :: (J ++ (E ++ W))).map N) z :=
          jointDens_perm (h.split.map N) z
        have hk2 : jointDens ((sys :: (J ++ (E ++ W))).map N) z =
            jointDens ((sys :: (J ++ (E ++ W))).map N') z := by
          unfold jointDens
          rw [List.map_map, List.map_map]
          congr 1
          refine List.map_congr_left fun k hk => ?_
          exact ((h.cond hcx (h.split.mem_iff.2 hk)).2.2.2.2 z hzm).symm
        rw [hk, hk2, show sys :: (J ++ (E ++ W)) = (sys :: J) ++ (E ++ W) from rfl, List.map_append,
          jointDens_append, hSs.dens, jointDens_perm hl2]
        rfl
      · intro a b hab
        refine dens_congr fun k hk => hab k fun hkW => ?_
        rw [sizes_fst] at hkW
        rw [getNames_eq, List.mem_append] at hk
        rcases hk with hk | hk
        · exact hSJE k (hSchild.mem_iff.1 hk) (List.mem_append_right _ hkW)
        · rcases hSpar k hk with hk | hk
          · exact (List.nodup_append.1 hEWn).2.2 k hk k hkW rfl
          · exact h.disj k (hEWk k (List.mem_append_right _ hkW)) hk
    · obtain ⟨v, cv, hv⟩ := c4 m hm (hno m hm)
      rw [hv.rows c hc, hv.vars]
      have hvn := hv.wf.nodup
      rw [hv.vars, List.map_cons, List.nodup_cons] at hvn
      change RowMatches cv _ x
      rw [rowMatches_iff hvn.2 (by simp)]
      intro w hw
      have hwc : w.name ∈ Mc.getNames := by
        refine c5 m hm _ ?_
        unfold parentNames
        rw [hv.noChild, hv.vars]
        exact List.mem_map_of_mem hw
      have hwm : w ∈ m.vars := by rw [hv.vars]; simp [hw]
      rw [show (cv.map fun w => val Mc.getNames cx w.name) =
        (cv.map Variable.name).map (val Mc.getNames cx) by simp, val_map _ _ (List.mem_map_of_mem hw)]
      obtain ⟨u, hu, hue⟩ := List.mem_map.1 hwc
      have huw : u = w := by rw [← h.mc.env u hu, ← hv.wf.env w hwm, hue]
      rw [stateSet_basic (hv.wf.table w hwm) (by rw [← huw]; exact h.mcCol hcx hu),
        Finset.mem_singleton]
      exact (h.matches hcx x).1 hx _ hwc

/-- One row of the conditioning CPM. -/
theorem condVERow_spec (h : RowNet U N keys sys W E J Mc) {cx : List ℕ} (hcx : cx ∈ Mc.C)
    {veVars : List (Variable K)} (hW : veVars.map Variable.name = W) {condNames : List K}
    (hcn : ∀ k, k ∈ condNames ↔ k ∈ Mc.getNames) {R : Cpm K}
    (hR : condVERow (keys.map fun k => (k, N k)) sys E J condNames veVars Mc cx = .ok R) :
    WF U R ∧ (∀ k, k ∈ R.getNames ↔ k = sys ∨ k ∈ J) ∧ R.noChild = R.vars.length ∧
      ∀ x, dens R x = rowPart U (keys.map N) ((E ++ W).map U) Mc cx x := by
  unfold condVERow at hR
  rw [condition_ok h.mc (evidence_row h.mc hcx _) h.mc.nodup, ok_bind] at hR
  obtain ⟨s1, s2, s3, s4⟩ := h.self hcx
  obtain ⟨c0, hc0, hR1⟩ := bind_ok.1 hR
  have hc0' : c0 = cx := by
    refine s3 c0 ?_
    unfold pyGet at hc0
    cases hi : (condPure Mc Mc.vars cx).C[0]? with
    | none => rw [hi] at hc0; cases hc0
    | some r => rw [hi] at hc0; cases hc0; exact List.mem_of_getElem? hi
  subst hc0'
  have hmapN : (keys.map fun k => (k, N k)).map Prod.snd = keys.map N := by
    rw [List.map_map]; rfl
  have hmapK : (keys.map fun k => (k, N k)).map Prod.fst = keys := by
    rw [List.map_map]; exact List.map_id' keys
  rw [hmapN, hmapK, show (condPure Mc Mc.vars c0).vars = Mc.vars from rfl,
    conditionAll_ok (fun M hM => by
      obtain ⟨k, hk, rfl⟩ := List.mem_map.1 hM
      exact h.wf k hk) h.mc hcx, ok_bind] at hR1
  have hd1 : keys.zip ((keys.map N).map fun M => condPure M Mc.vars c0) =
      keys.map fun k => (k, condPure (N k) Mc.vars c0) := by
    rw [List.map_map]
    generalize keys = ks
    induction ks with
    | nil => rfl
    | cons k ks ih => simp only [List.map_cons, List.zip_cons_cons, ih]; rfl
  rw [hd1] at hR1
  obtain ⟨S0, hS0, hR2⟩ := bind_ok.1 hR1
  obtain ⟨hsysk, rfl⟩ := assocGet_map (fun k => condPure (N k) Mc.vars c0) keys hS0
  obtain ⟨⟨S, d2⟩, hj, hR3⟩ := bind_ok.1 hR2
  obtain ⟨j1, rfl⟩ := joinComps_spec (fun k => condPure (N k) Mc.vars c0) J keys hj
  simp only at hR3
  have hl2 : (((keys.filter fun k => k ∉ J).map fun k => (k, condPure (N k) Mc.vars c0)).filter
      fun km => km.1 ≠ sys).map Prod.snd =
      ((keys.filter fun k => k ∉ J).filter fun k => k ≠ sys).map
        fun k => condPure (N k) Mc.vars c0 := by
    rw [List.filter_map, List.map_map]; rfl
  rw [hl2] at hR3
  obtain ⟨comps, hcomps, hR4⟩ := bind_ok.1 hR3
  obtain ⟨P, hP, hR5⟩ := bind_ok.1 hR4
  obtain ⟨ev, hev, hR6⟩ := bind_ok.1 hR5
  obtain ⟨Q, hQ, hR7⟩ := bind_ok.1 hR6
  obtain ⟨T, hT, hR8⟩ := bind_ok.1 hR7
  obtain ⟨cv, hcv, hR9⟩ := bind_ok.1 hR8
  have hnd := (h.split.nodup_iff).1 h.nodup
  rw [List.nodup_cons, List.nodup_append] at hnd
  obtain ⟨hs0, hJn, hEWn, hJE⟩ := hnd
  have hperm : ((keys.filter fun k => k ∉ J).filter fun k => k ≠ sys).Perm (E ++ W) := by
    rw [List.perm_ext_iff_of_nodup ((h.nodup.filter _).filter _) hEWn]
    intro k
    rw [List.mem_filter, List.mem_filter, h.split.mem_iff, List.mem_cons, List.mem_append]
    simp only [decide_eq_true_eq]
    constructor
    · rintro ⟨⟨h1 | h1 | h1, h2⟩, h3⟩
      · exact absurd h1 h3
      · exact absurd h1 h2
      · exact h1
    · intro h1
      exact ⟨⟨.inr (.inr h1), fun h2 => hJE k h2 k h1 rfl⟩,
        fun e => hs0 (List.mem_append_right _ (e ▸ h1))⟩
  obtain ⟨a1, a2, a3, a4⟩ := h.system hcx hW (hperm.map _) hcomps j1 hP (getVariables_inv hev).1 hQ
  have hSJk : ∀ k ∈ sys :: J, k ∈ keys := by
    intro k hk
    refine h.split.mem_iff.2 ?_
    rcases List.mem_cons.1 hk with rfl | hk
    · simp
    · simp [hk]
  -- the product with the conditioning CPM
  have hTs := product_ok_spec a1 s1 (fun k hk hk' => by
    refine h.disj k (hSJk k (a2.mem_iff.1 hk)) ?_
    rw [getNames_eq]; exact List.mem_append_left _ hk') hT
  have hTchild : ∀ k, k ∈ childNames T ↔ (k = sys ∨ k ∈ J) ∨ k ∈ Mc.getNames := by
    intro k
    rw [hTs.child.mem_iff]
    simp only [List.flatMap_cons, List.flatMap_nil, List.append_nil, List.mem_append]
    rw [a2.mem_iff, List.mem_cons]
    refine or_congr_right ⟨fun hk => ?_, fun hk => h.mcChild k hk⟩
    have : k ∈ Mc.getNames := by rw [getNames_eq]; exact List.mem_append_left _ hk
    exact this
  have hTpar : T.vars.drop T.noChild = [] := by
    have h1 := prod_par (A := fun k => k ∈ Mc.getNames) hTs (by
      intro M hM k hk
      simp only [List.mem_cons, List.not_mem_nil, or_false] at hM
      rcases hM with rfl | rfl
      · exact a3 k hk
      · have : k ∈ Mc.getNames := by rw [getNames_eq]; exact List.mem_append_right _ hk
        exact this)
    by_contra hne
    obtain ⟨v, hv⟩ := List.exists_mem_of_ne_nil _ hne
    have hvp : v.name ∈ parentNames T := List.mem_map_of_mem hv
    exact nodup_names hTs.wf ((hTchild _).2 (.inr (h1 _ hvp))) hvp
  have hcvn := (getVariables_inv hcv).1
  have hcvm : ∀ k, k ∈ cv.map Variable.name ↔ k ∈ Mc.getNames := fun k => by rw [hcvn, hcn]
  have hleft : ∀ k, k ∈ ((T.vars.take T.noChild).filter
      (fun v => v.name ∉ cv.map Variable.name)).map Variable.name ↔ k = sys ∨ k ∈ J := by
    intro k
    constructor
    · intro hk
      obtain ⟨v, hv, rfl⟩ := List.mem_map.1 hk
      obtain ⟨hv1, hv2⟩ := List.mem_filter.1 hv
      rcases (hTchild v.name).1 (List.mem_map_of_mem hv1) with h1 | h1
      · exact h1
      · exact absurd ((hcvm _).2 h1) (of_decide_eq_true hv2)
    · intro hk
      obtain ⟨v, hv, rfl⟩ := List.mem_map.1 ((hTchild k).2 (.inl hk))
      refine List.mem_map_of_mem (List.mem_filter.2 ⟨hv, ?_⟩)
      rw [decide_eq_true_iff, hcvm]
      exact h.disj _ (hSJk _ (List.mem_cons.2 hk))
  have hne : (T.vars.take T.noChild).filter (fun v => v.name ∉ cv.map Variable.name) ++
      T.vars.drop T.noChild ≠ [] := by
    obtain ⟨v, hv, -⟩ := List.mem_map.1 ((hleft sys).2 (.inl rfl))
    exact List.ne_nil_of_mem (List.mem_append_left _ hv)
  obtain ⟨R', r1, r2, r3, r4, -, -, r7⟩ := sumAny_ok hTs.wf cv hne
  rw [hR9] at r1
  cases r1
  rw [hTpar, List.append_nil] at r2
  have hTcov : ∀ x, Covers T x → ∀ k ∈ Mc.getNames, x k = val Mc.getNames c0 k := fun x hx =>
    s2 x ((hTs.covers x).1 hx _ (by simp))
  set Dv := (T.vars.take T.noChild).filter (fun v => v.name ∈ cv.map Variable.name) with hDv
  have hDvm : ∀ v ∈ Dv, v ∈ T.vars ∧ v ∈ Mc.vars := by
    intro v hv
    obtain ⟨hv1, hv2⟩ := List.mem_filter.1 hv
    have hvT := List.mem_of_mem_take hv1
    refine ⟨hvT, ?_⟩
    obtain ⟨u, hu, hue⟩ := List.mem_map.1 ((hcvm _).1 (of_decide_eq_true hv2))
    have : u = v := by rw [← h.mc.env u hu, ← hTs.wf.env v hvT, hue]
    rw [← this]; exact hu
  have hDn : (Dv.map Variable.name).Nodup :=
    hTs.wf.nodup.sublist ((List.filter_sublist.trans (List.take_sublist _ _)).map _)
  have hDp : (Dv.map Variable.name).Perm Mc.getNames := by
    refine (List.perm_ext_iff_of_nodup hDn h.mc.nodup).2 fun k => ?_
    constructor
    · intro hk
      obtain ⟨v, hv, rfl⟩ := List.mem_map.1 hk
      exact List.mem_map_of_mem (hDvm v hv).2
    · intro hk
      obtain ⟨v, hv, rfl⟩ := List.mem_map.1 ((hTchild k).2 (.inr hk))
      refine List.mem_map_of_mem (List.mem_filter.2 ⟨hv, ?_⟩)
      rw [decide_eq_true_iff, hcvm]
      exact hk
  refine ⟨r4, fun k => ?_, by rw [r3, r2], fun x => ?_⟩
  · unfold Cpm.getNames
    rw [r2]
    exact hleft k
  · rw [r7 Dv (fun r hr v hv => ?_) (List.Perm.refl _) x]
    · rw [sizes_vars fun v hv => hTs.wf.env v (hDvm v hv).1,
        sumOver_perm (vs := sizes U (Dv.map Variable.name)) (ws := sizes U Mc.getNames) (hDp.map _)
          (by rw [sizes_fst]; exact hDn)]
      unfold rowPart
      refine sumOver_congr _ _ fun y => ?_
      rw [hTs.dens]
      simp only [List.map_cons, List.map_nil, List.prod_cons, List.prod_nil, mul_one]
      rw [s4]
      by_cases hm : RowMatches Mc.vars c0 y
      · rw [if_pos hm, if_pos hm, a4 y hm]
        have : ((E ++ W).map U).map Variable.name = E ++ W := by
          rw [List.map_map]
          conv_rhs => rw [← List.map_id (E ++ W)]
          refine List.map_congr_left fun k hk => ?_
          exact h.names (h.split.mem_iff.2 (List.mem_cons_of_mem _ (List.mem_append_right _ hk)))
        rw [this]
      · rw [if_neg hm, if_neg hm, mul_zero]
    · obtain ⟨h1, h2⟩ := hDvm v hv
      rw [col_val (c := fun k => val Mc.getNames c0 k) hTs.wf h1 (h.mcCol hcx h2)
        (fun x hx => hTcov x hx _ (List.mem_map_of_mem h2)) hr]
      exact h.mcCol hcx h2

/-- The rows together. -/
theorem condVELoop_some {row : List ℕ → Except Err (Cpm K)} {part : List ℕ → (K → ℕ) → ℚ}
    (hrow : ∀ cx N, row cx = .ok N → WF U N ∧ ∀ x, dens N x = part cx x) :
    ∀ (rows : List (List ℕ)) {A R : Cpm K}, WF U A → condVELoop row rows (some A) = .ok R →
      WF U R ∧ R.vars = A.vars ∧ R.noChild = A.noChild ∧
        ∀ x, dens R x = dens A x + (rows.map fun cx => part cx x).sum := by
  intro rows
  induction rows with
  | nil => intro A R hA h; cases h; exact ⟨hA, rfl, rfl, by simp⟩
  | cons cx rows ih =>
    intro A R hA h
    unfold condVELoop at h
    obtain ⟨m, hm, h1⟩ := bind_ok.1 h
    obtain ⟨⟨A', B⟩, hmer, h2⟩ := bind_ok.1 h1
    obtain ⟨w1, w2⟩ := hrow cx m hm
    have hvars : A.vars = m.vars := vars_ext hA.env w1.env (merge_inv hmer)
    have hB : WF U B ∧ B.vars = A.vars ∧ B.noChild = A.noChild ∧
        ∀ x, dens B x = dens A x + dens m x := by
      by_cases hsub : ∀ r ∈ m.C, r ∈ A.C
      · obtain ⟨A1, R1, m1, m2, m4, m5, -, m6⟩ := C14_merge_partial A m hA w1 hvars hsub
        rw [hmer] at m1
        cases m1
        exact ⟨m2, m4, m5, m6⟩
      · push Not at hsub
        rw [C14_missing_row_raises A m hA w1 hvars hsub] at hmer
        cases hmer
    obtain ⟨b1, b2, b3, b4⟩ := hB
    obtain ⟨r1, r2, r3, r4⟩ := ih b1 h2
    refine ⟨r1, r2.trans b2, r3.trans b3, fun x => ?_⟩
    rw [r4, b4, w2, List.map_cons, List.sum_cons, add_assoc]

/-- The whole loop, on the network of `RowNet`. -/
theorem condVELoop_spec (h : RowNet U N keys sys W E J Mc)
    {veVars : List (Variable K)} (hW : veVars.map Variable.name = W) {condNames : List K}
    (hcn : ∀ k, k ∈ condNames ↔ k ∈ Mc.getNames) {R : Cpm K}
    (hR : condVELoop (fun cx => condVERow (keys.map fun k => (k, N k)) sys E J condNames veVars Mc cx)
      Mc.C none = .ok R) :
    WF U R ∧ (∀ k, k ∈ R.getNames ↔ k = sys ∨ k ∈ J) ∧ R.noChild = R.vars.length ∧
      ∀ x, dens R x = sumOver (sizes U (Mc.getNames ++ (E ++ W)))
        (fun y => jointDens (keys.map N) y * dens Mc y) x := by
  have hEWk : ∀ k ∈ E ++ W, k ∈ keys := fun k hk =>
    h.split.mem_iff.2 (List.mem_cons_of_mem _ (List.mem_append_right _ hk))
  have hnames : ((E ++ W).map U).map Variable.name = E ++ W := by
    rw [List.map_map]
    conv_rhs => rw [← List.map_id (E ++ W)]
    exact List.map_congr_left fun k hk => h.names (hEWk k hk)
  have hnet : CondNet U (keys.map N) ((E ++ W).map U) Mc := by
    refine ⟨⟨?_, ?_, childDisjoint_keys h.nodup h.child⟩, h.mc, h.mcChild, h.mcBasic, h.mcRows, ?_, ?_, ?_⟩
    · intro M hM
      obtain ⟨k, hk, rfl⟩ := List.mem_map.1 hM
      exact h.wf k hk
    · intro M hM
      obtain ⟨k, hk, rfl⟩ := List.mem_map.1 hM
      exact h.basic k hk
    · intro M hM k hk hk'
      obtain ⟨j, hj, rfl⟩ := List.mem_map.1 hM
      rw [h.child j hj, List.mem_singleton] at hk
      subst hk
      refine h.disj k hj ?_
      rw [getNames_eq]; exact List.mem_append_left _ hk'
    · rw [hnames]
      have := (h.split.nodup_iff).1 h.nodup
      rw [List.nodup_cons, List.nodup_append] at this
      exact this.2.2.1
    · intro v hv
      obtain ⟨k, hk, rfl⟩ := List.mem_map.1 hv
      refine ⟨N k, List.mem_map_of_mem (hEWk k hk), ?_⟩
      rw [h.names (hEWk k hk), h.child k (hEWk k hk)]
      simp
  -- every row but the first is merged
  cases hC : Mc.C with
  | nil => rw [hC] at hR; cases hR
  | cons c0 rows =>
    have hmem : ∀ cx ∈ c0 :: rows, cx ∈ Mc.C := fun cx hcx => by rw [hC]; exact hcx
    rw [hC] at hR
    unfold condVELoop at hR
    obtain ⟨m, hm, hR1⟩ := bind_ok.1 hR
    simp only at hR1
    obtain ⟨w1, w2, w3, w4⟩ := condVERow_spec h (hmem c0 (by simp)) hW hcn hm
    have hloop : ∀ (l : List (List ℕ)), (∀ cx ∈ l, cx ∈ Mc.C) → ∀ {A : Cpm K},
        condVELoop (fun cx => condVERow (keys.map fun k => (k, N k)) sys E J condNames veVars Mc cx)
          l (some A) = condVELoop (fun cx => if cx ∈ Mc.C then
            condVERow (keys.map fun k => (k, N k)) sys E J condNames veVars Mc cx else .error .fuel)
          l (some A) := by
      intro l
      induction l with
      | nil => intro _ A; rfl
      | cons cx l ih =>
        intro hl A
        unfold condVELoop
        simp only [if_pos (hl cx (by simp))]
        refine bind_congr fun m => ?_
        refine bind_congr fun p => ?_
        exact ih fun c hc => hl c (by simp [hc])
    rw [hloop rows fun cx hcx => hmem cx (by simp [hcx])] at hR1
    obtain ⟨r1, r2, r3, r4⟩ := condVELoop_some (U := U)
      (part := fun cx x => rowPart U (keys.map N) ((E ++ W).map U) Mc cx x) (fun cx m' hm' => by
        by_cases hcx : cx ∈ Mc.C
        · rw [if_pos hcx] at hm'
          obtain ⟨v1, -, -, v4⟩ := condVERow_spec h hcx hW hcn hm'
          exact ⟨v1, v4⟩
        · rw [if_neg hcx] at hm'; cases hm') rows w1 hR1
    refine ⟨r1, fun k => ?_, by rw [r2, r3, w3], fun x => ?_⟩
    · rw [← w2 k]; unfold Cpm.getNames; rw [r2]
    · have hsum := sum_rowPart hnet x
      rw [hnames, hC, List.map_cons, List.sum_cons] at hsum
      rw [r4, w4, ← hsum]

end
end BNS
