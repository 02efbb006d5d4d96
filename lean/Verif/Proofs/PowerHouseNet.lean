import Verif.Proofs.PowerHouse

/-! The network of the power_house demo. -/

namespace BNS

set_option linter.unusedSectionVars false

/-- A variable together with its state as a function of the damaged structures. -/
abbrev GlobalState := Name × ((Name → Bool) → ℕ)

/-- The damaged structures of an assignment. -/
def downOf (x : Name → ℕ) : Name → Bool := fun s => decide (x (xName s) = 0)

/-- The requirements on one CPM of the network. -/
structure NodeCpm (V : List (Name × Variable Name)) (x0 : Name → ℕ) (k : Name) (M : Cpm Name) :
    Prop where
  vars : ∃ v ps, M.vars = v :: ps ∧ v.name = k
  known : ∀ v ∈ M.vars, (v.name, v) ∈ V
  nodup : (M.vars.map Variable.name).Nodup
  noChild : M.noChild = 1
  pLen : M.p.length = M.C.length
  noCs : M.Cs = [] ∧ M.q = [] ∧ M.ps = [] ∧ M.sampleIdx = []
  rows : ∀ r ∈ M.C, r.length = M.vars.length ∧
    (∀ vc ∈ (M.vars.take 1).zip r, vc.2 < vc.1.values.length) ∧
    ∀ vc ∈ M.vars.zip r, vc.2 + 1 < 2 ^ vc.1.values.length
  cov : Covers M x0

theorem NodeCpm.mono {V V' : List (Name × Variable Name)} {x0 : Name → ℕ} {k : Name} {M : Cpm Name}
    (h : NodeCpm V x0 k M) (hs : ∀ kv ∈ V, kv ∈ V') : NodeCpm V' x0 k M :=
  ⟨h.vars, fun v hv => hs _ (h.known v hv), h.nodup, h.noChild, h.pLen, h.noCs, h.rows, h.cov⟩

/-- The variables `B` are random, `w` their joint probability; the state of every other variable is
a function of the damaged structures.  `H` are variables whose state may be out of range. -/
structure PowerInv (H B : List Name) (x0 : Name → ℕ) (w : (Name → ℕ) → ℚ) (d : PowerDicts)
    (L : List GlobalState) : Prop where
  keys : d.1.map Prod.fst = d.2.map Prod.fst
  order : d.2.map Prod.fst = B ++ L.map Prod.fst
  nodup : (d.2.map Prod.fst).Nodup
  var : ∀ kv ∈ d.2, kv.2.name = kv.1 ∧ kv.2.B = some (genB kv.2.values.length) ∧
    ∃ m, 0 < m ∧ kv.2.values = rangeValues m
  cpm : ∀ kM ∈ d.1, NodeCpm d.2 x0 kM.1 kM.2
  joint : ∀ x : Name → ℕ, (∀ kv ∈ d.2, kv.1 ∉ H → x kv.1 < kv.2.values.length) →
    jointDens (d.1.map Prod.snd) x =
      w x * if ∀ kG ∈ L, x kG.1 = kG.2 (downOf x) then 1 else 0
  bound : ∀ kG ∈ L, ∀ v, (kG.1, v) ∈ d.2 → ∀ down, kG.2 down < v.values.length
  glob0 : ∀ kG ∈ L, x0 kG.1 = kG.2 (downOf x0)
  valid0 : ∀ kv ∈ d.2, x0 kv.1 < kv.2.values.length
  linked : ∀ k ∈ d.2.map Prod.fst, Relation.ReflTransGen (Share (d.1.map Prod.snd)) k hazName

theorem share_mono {K : Type} {l l' : List (Cpm K)} (h : ∀ M ∈ l, M ∈ l') {a b : K}
    (hr : Relation.ReflTransGen (Share l) a b) : Relation.ReflTransGen (Share l') a b := by
  induction hr with
  | refl => exact .refl
  | tail _ hbc ih =>
    obtain ⟨M, hM, h1, h2⟩ := hbc
    exact ih.tail ⟨M, h M hM, h1, h2⟩

/-- A CPM for a new variable. -/
structure NewCpm (d : PowerDicts) (x0 : Name → ℕ) (k : Name) (v : Variable Name)
    (ps : List (Variable Name)) (M : Cpm Name) : Prop where
  fresh : k ∉ d.2.map Prod.fst
  name : v.name = k
  table : v.B = some (genB v.values.length)
  values : ∃ m, 0 < m ∧ v.values = rangeValues m
  vars : M.vars = v :: ps
  ne : ps ≠ []
  known : ∀ p ∈ ps, (p.name, p) ∈ d.2
  nodup : (ps.map Variable.name).Nodup
  noChild : M.noChild = 1
  pLen : M.p.length = M.C.length
  noCs : M.Cs = [] ∧ M.q = [] ∧ M.ps = [] ∧ M.sampleIdx = []
  rows : ∀ r ∈ M.C, r.length = M.vars.length ∧ (∀ s ∈ r.head?, s < v.values.length) ∧
    ∀ vc ∈ M.vars.zip r, vc.2 + 1 < 2 ^ vc.1.values.length
  valid0 : x0 k < v.values.length

variable {H B : List Name} {x0 : Name → ℕ} {w : (Name → ℕ) → ℚ} {d : PowerDicts}
  {L : List GlobalState} {k : Name} {v : Variable Name} {ps : List (Variable Name)} {M : Cpm Name}

theorem PowerInv.add (h : PowerInv H B x0 w d L) (hn : NewCpm d x0 k v ps M) {B' : List Name}
    {L' : List GlobalState} {w' : (Name → ℕ) → ℚ} (hcov : Covers M x0)
    (horder : B' ++ L'.map Prod.fst = (B ++ L.map Prod.fst) ++ [k])
    (hdens : ∀ x : Name → ℕ, (∀ kv ∈ d.2, kv.1 ∉ H → x kv.1 < kv.2.values.length) →
      (k ∉ H → x k < v.values.length) →
      (w x * if ∀ kG ∈ L, x kG.1 = kG.2 (downOf x) then 1 else 0) * dens M x =
        w' x * if ∀ kG ∈ L', x kG.1 = kG.2 (downOf x) then 1 else 0)
    (hL : ∀ kG ∈ L', kG ∈ L ∨ (kG.1 = k ∧ ∀ down, kG.2 down < v.values.length) ∧
      x0 k = kG.2 (downOf x0)) :
    PowerInv H B' x0 w' (d.1 ++ [(k, M)], d.2 ++ [(k, v)]) L' := by
  have hkeys : ∀ {v'}, (k, v') ∈ d.2 → False := fun hm =>
    hn.fresh (List.mem_map.2 ⟨_, hm, rfl⟩)
  refine ⟨?_, ?_, ?_, ?_, ?_, ?_, ?_, ?_, ?_, ?_⟩
  · simp [h.keys]
  · rw [List.map_append, h.order, horder]; rfl
  · rw [List.map_append]
    refine List.nodup_append.2 ⟨h.nodup, by simp, fun a ha b hb => ?_⟩
    simp only [List.map_cons, List.map_nil, List.mem_singleton] at hb
    rintro rfl
    exact hn.fresh (hb ▸ ha)
  · intro kv hkv
    rcases List.mem_append.1 hkv with hkv | hkv
    · exact h.var kv hkv
    · rw [List.mem_singleton.1 hkv]
      exact ⟨hn.name, hn.table, hn.values⟩
  · intro kM hkM
    rcases List.mem_append.1 hkM with hkM | hkM
    · exact (h.cpm kM hkM).mono fun kv hkv => List.mem_append_left _ hkv
    · rw [List.mem_singleton.1 hkM]
      refine ⟨⟨v, ps, hn.vars, hn.name⟩, ?_, ?_, hn.noChild, hn.pLen, hn.noCs, ?_, hcov⟩
      · intro u hu
        rw [hn.vars] at hu
        rcases List.mem_cons.1 hu with rfl | hu
        · rw [hn.name]; simp
        · exact List.mem_append_left _ (hn.known u hu)
      · rw [hn.vars, List.map_cons, List.nodup_cons]
        refine ⟨fun hc => ?_, hn.nodup⟩
        obtain ⟨p, hp, e⟩ := List.mem_map.1 hc
        have := hn.known p hp
        rw [e, hn.name] at this
        exact hkeys this
      · intro r hr
        obtain ⟨h1, h2, h3⟩ := hn.rows r hr
        refine ⟨h1, fun vc hvc => ?_, h3⟩
        rw [hn.vars] at hvc
        cases r with
        | nil => simp at hvc
        | cons a r =>
          have : vc = (v, a) := by simpa using hvc
          rw [this]
          exact h2 a (by simp)
  · intro x hx
    have h1 := h.joint x fun kv hkv => hx kv (List.mem_append_left _ hkv)
    rw [← hdens x (fun kv hkv => hx kv (List.mem_append_left _ hkv))
      (fun hk => hx (k, v) (by simp) hk), ← h1, List.map_append, jointDens_append]
    simp [jointDens]
  · intro kG hkG u hu down
    rcases List.mem_append.1 hu with hu | hu
    · rcases hL kG hkG with hm | ⟨⟨e, -⟩, -⟩
      · exact h.bound kG hm u hu down
      · exact absurd (e ▸ hu) hkeys
    · have he : (kG.1, u) = (k, v) := List.mem_singleton.1 hu
      obtain ⟨e1, rfl⟩ := Prod.mk.inj he
      rcases hL kG hkG with hm | ⟨⟨-, hb⟩, -⟩
      · refine absurd ?_ hn.fresh
        rw [h.order, ← e1]
        exact List.mem_append_right _ (List.mem_map_of_mem hm)
      · exact hb down
  · intro kG hkG
    rcases hL kG hkG with hm | ⟨⟨e, -⟩, h0⟩
    · exact h.glob0 kG hm
    · rw [e, h0]
  · intro kv hkv
    rcases List.mem_append.1 hkv with hkv | hkv
    · exact h.valid0 kv hkv
    · rw [List.mem_singleton.1 hkv]
      exact hn.valid0
  · have hmono : ∀ N ∈ d.1.map Prod.snd, N ∈ (d.1 ++ [(k, M)]).map Prod.snd := fun N hN => by
      rw [List.map_append]; exact List.mem_append_left _ hN
    intro j hj
    rw [List.map_append] at hj
    rcases List.mem_append.1 hj with hj | hj
    · exact share_mono hmono (h.linked j hj)
    · have : j = k := by simpa using hj
      subst this
      obtain ⟨p, hp⟩ := List.exists_mem_of_ne_nil _ hn.ne
      refine Relation.ReflTransGen.head (b := p.name) ⟨M, by simp, ?_, ?_⟩
        (share_mono hmono (h.linked _ (List.mem_map_of_mem (hn.known p hp))))
      · rw [hn.vars, ← hn.name]; simp
      · rw [hn.vars, List.map_cons]
        exact List.mem_cons_of_mem _ (List.mem_map_of_mem hp)

/-- A further random variable. -/
theorem PowerInv.addBase (h : PowerInv H B x0 w d []) (hn : NewCpm d x0 k v ps M) (hk : k ∉ H)
    {g : (Name → ℕ) → ℚ} (hcov : Covers M x0)
    (hdens : ∀ x : Name → ℕ, (∀ kv ∈ d.2, kv.1 ∉ H → x kv.1 < kv.2.values.length) →
      x k < v.values.length → dens M x = g x) :
    PowerInv H (B ++ [k]) x0 (fun x => w x * g x) (d.1 ++ [(k, M)], d.2 ++ [(k, v)]) [] := by
  refine h.add hn hcov (by simp) (fun x hx hkx => ?_) (by simp)
  rw [hdens x hx (hkx hk)]
  simp

/-- A further variable whose state is a function of the damaged structures. -/
theorem PowerInv.addDet (h : PowerInv H B x0 w d L) (hn : NewCpm d x0 k v ps M)
    (G : (Name → Bool) → ℕ) (h0 : x0 k = G (downOf x0))
    (hdens : ∀ x : Name → ℕ, (∀ kv ∈ d.2, kv.1 ∉ H → x kv.1 < kv.2.values.length) →
      (∀ kG ∈ L, x kG.1 = kG.2 (downOf x)) →
      dens M x = if x k = G (downOf x) then 1 else 0)
    (hb : ∀ down, G down < v.values.length) :
    PowerInv H B x0 w (d.1 ++ [(k, M)], d.2 ++ [(k, v)]) (L ++ [(k, G)]) := by
  refine h.add hn ?_ (by simp) (fun x hx hkx => ?_) fun kG hkG => ?_
  · have h1 := hdens x0 (fun kv hkv _ => h.valid0 kv hkv) h.glob0
    rw [if_pos h0] at h1
    by_contra hc
    rw [dens_zero hc] at h1
    exact zero_ne_one h1
  · by_cases hL : ∀ kG ∈ L, x kG.1 = kG.2 (downOf x)
    · rw [hdens x hx hL, if_pos hL, mul_one]
      congr 1
      refine if_congr ⟨fun e kG hkG => ?_, fun hall => hall (k, G) (by simp)⟩ rfl rfl
      rcases List.mem_append.1 hkG with hkG | hkG
      · exact hL kG hkG
      · rw [List.mem_singleton.1 hkG]; exact e
    · rw [if_neg hL, mul_zero, zero_mul, if_neg fun hall => hL fun kG hkG =>
        hall kG (List.mem_append_left _ hkG), mul_zero]
  · rcases List.mem_append.1 hkG with hkG | hkG
    · exact .inl hkG
    · rw [List.mem_singleton.1 hkG]
      exact .inr ⟨⟨rfl, hb⟩, h0⟩

/-! ### The steps -/

theorem mk'_table {K : Type} (k : K) {m : ℕ} (h0 : 0 < m) (h6 : m ≤ 6) :
    (Variable.mk' k (rangeValues m) .dflt).B =
      some (genB (Variable.mk' k (rangeValues m) .dflt).values.length) := by
  simp [Variable.mk', length_rangeValues, storesB, h0, h6]

theorem mk'_len {K : Type} (k : K) (m : ℕ) :
    (Variable.mk' k (rangeValues m) .dflt).values.length = m := by
  simp [Variable.mk', length_rangeValues]

theorem rangeValues_two : rangeValues 2 = [0, 1] := by decide +kernel

theorem succ_lt_two_pow {j m : ℕ} (h : j < m) : j + 1 < 2 ^ m :=
  lt_of_le_of_lt h Nat.lt_two_pow_self

/-- Rows of basic states. -/
theorem dens_basic {M : Cpm Name} (ht : ∀ v ∈ M.vars, v.B = some (genB v.values.length))
    (hl : ∀ r ∈ M.C, r.length = M.vars.length) (hb : AllBasic M) (hn : M.C.Nodup) {q : ℚ}
    {x : Name → ℕ} (h : (M.vars.map fun v => x v.name, q) ∈ M.C.zip M.p) : dens M x = q := by
  have hm := (List.of_mem_zip h).1
  exact dens_of_row (rowsDisjoint_basic ht hl hb hn) h
    ((basic_match ht (hl _ hm) (hb _ hm)).2 rfl)

theorem dens_basic_unit {M : Cpm Name} (ht : ∀ v ∈ M.vars, v.B = some (genB v.values.length))
    (hl : ∀ r ∈ M.C, r.length = M.vars.length) (hb : AllBasic M) (hn : M.C.Nodup)
    (hp : M.p = M.C.map fun _ => 1) (x : Name → ℕ) :
    dens M x = if (M.vars.map fun v => x v.name) ∈ M.C then 1 else 0 := by
  rw [dens_unit (rowsDisjoint_basic ht hl hb hn) hp]
  refine if_congr ⟨?_, fun h => ⟨_, h, (basic_match ht (hl _ h) (hb _ h)).2 rfl⟩⟩ rfl rfl
  rintro ⟨r, hr, hm⟩
  rw [← (basic_match ht (hl r hr) (hb r hr)).1 hm]
  exact hr

/-- A new CPM whose rows are basic. -/
theorem NewCpm.of_basic {d : PowerDicts} {x0 : Name → ℕ} {k : Name} {v : Variable Name}
    {ps : List (Variable Name)} {M : Cpm Name} (fresh : k ∉ d.2.map Prod.fst) (name : v.name = k)
    (table : v.B = some (genB v.values.length)) (values : ∃ m, 0 < m ∧ v.values = rangeValues m)
    (vars : M.vars = v :: ps) (ne : ps ≠ []) (known : ∀ p ∈ ps, (p.name, p) ∈ d.2)
    (nodup : (ps.map Variable.name).Nodup) (noChild : M.noChild = 1)
    (pLen : M.p.length = M.C.length)
    (noCs : M.Cs = [] ∧ M.q = [] ∧ M.ps = [] ∧ M.sampleIdx = [])
    (len : ∀ r ∈ M.C, r.length = M.vars.length) (basic : AllBasic M)
    (valid0 : x0 k < v.values.length) : NewCpm d x0 k v ps M where
  fresh := fresh
  name := name
  table := table
  values := values
  vars := vars
  ne := ne
  known := known
  nodup := nodup
  noChild := noChild
  pLen := pLen
  noCs := noCs
  rows r hr := by
    refine ⟨len r hr, fun s hs => ?_, fun vc hvc => succ_lt_two_pow (basic r hr vc hvc)⟩
    have := basic r hr
    rw [vars] at this
    cases r with
    | nil => simp at hs
    | cons a r =>
      have : a = s := by simpa using hs
      subst this
      exact this (v, a) (by simp)
  valid0 := valid0

theorem NewCpm.made {d : PowerDicts} {x0 : Name → ℕ} {k : Name} {v : Variable Name}
    {ps : List (Variable Name)} {M : Cpm Name} (h : NewCpm d x0 k v ps M) : Cpm.mk' M = .ok M := by
  refine mk'_ok (fun r hr => (h.rows r hr).1) (fun r hr => (h.rows r hr).2.2) ?_ (.inr h.pLen)
    h.noCs.1
  rw [h.noChild, h.vars]
  simp

theorem PowerInv.itemGet {H B : List Name} {x0 : Name → ℕ} {w : (Name → ℕ) → ℚ} {d : PowerDicts}
    {L : List GlobalState} (h : PowerInv H B x0 w d L) {k : Name} (hk : k ∉ d.2.map Prod.fst)
    (v : Variable Name) {j : Name} {u : Variable Name} (hu : (j, u) ∈ d.2) :
    BNS.itemGet (d.2 ++ [(k, v)]) j = .ok u := by
  refine itemGet_ok ?_ (List.mem_append_left _ hu)
  rw [List.map_append]
  refine List.nodup_append.2 ⟨h.nodup, by simp, fun a ha b hb => ?_⟩
  simp only [List.map_cons, List.map_nil, List.mem_singleton] at hb
  rintro rfl
  exact hk (hb ▸ ha)

/-- The hazard. -/
theorem powerHaz_inv (H : List Name) (haz : List (Name × ℚ)) (h0 : haz ≠ []) (h6 : haz.length ≤ 6)
    (x0 : Name → ℕ) (hx0 : x0 hazName = 0) (hH : hazName ∉ H) :
    ∃ d vh, powerHaz haz = .ok d ∧ d.2 = [(hazName, vh)] ∧ vh.values.length = haz.length ∧
      PowerInv H [hazName] x0 (fun x => (haz.map Prod.snd).getD (x hazName) 0) d [] := by
  have hpos : 0 < haz.length := List.length_pos_of_ne_nil h0
  obtain ⟨v, hv⟩ : ∃ v, v = Variable.mk' hazName (rangeValues haz.length) .dflt := ⟨_, rfl⟩
  have hvn : v.name = hazName := by rw [hv]; rfl
  have hvl : v.values.length = haz.length := by rw [hv, mk'_len]
  have hvB : v.B = some (genB v.values.length) := by rw [hv]; exact mk'_table _ hpos h6
  obtain ⟨M, hM⟩ : ∃ M : Cpm Name, M = { vars := [v], noChild := 1, C := (List.range haz.length).map fun i => [i], p := haz.map Prod.snd } := ⟨_, rfl⟩
  have hb : AllBasic M := by
    intro r hr vc hvc
    subst hM
    simp only [List.mem_map, List.mem_range] at hr
    obtain ⟨i, hi, rfl⟩ := hr
    have : vc = (v, i) := by simpa using hvc
    rw [this]
    exact hvl ▸ hi
  have hl : ∀ r ∈ M.C, r.length = M.vars.length := by
    intro r hr
    subst hM
    simp only [List.mem_map, List.mem_range] at hr
    obtain ⟨i, hi, rfl⟩ := hr
    rfl
  have hd : ∀ x : Name → ℕ, x hazName < haz.length →
      dens M x = (haz.map Prod.snd).getD (x hazName) 0 := by
    intro x hx
    refine dens_basic ?_ hl hb ?_ ?_
    · subst hM; intro u hu; rw [List.mem_singleton.1 hu]; exact hvB
    · subst hM
      exact List.nodup_range.map (fun a b h => by simpa using h)
    · subst hM
      simp only [List.map_cons, List.map_nil, hvn]
      refine List.mem_of_getElem? (i := x hazName) ?_
      rw [List.getElem?_zip_eq_some]
      simp [hx]
  have hc : Covers M x0 := by
    refine ⟨[0], by subst hM; simpa using hpos, ?_⟩
    subst hM
    intro vc hvc
    have : vc = (v, 0) := by simpa using hvc
    rw [this]
    simp only
    rw [stateSet_basic hvB (by omega), hvn, hx0]
    simp
  refine ⟨([(hazName, M)], [(hazName, v)]), v, ?_, rfl, hvl, ?_⟩
  · unfold powerHaz
    rw [← hv]
    simp only
    rw [← hM, mk'_ok hl (fun r hr vc hvc => succ_lt_two_pow (hb r hr vc hvc))
      (by subst hM; simp) (.inr (by subst hM; simp)) (by subst hM; rfl), ok_bind]
    rfl
  · refine ⟨rfl, rfl, by simp, ?_, ?_, ?_, by simp, by simp, ?_, ?_⟩
    · intro kv hkv
      rw [List.mem_singleton.1 hkv]
      refine ⟨hvn, hvB, haz.length, hpos, by rw [hv]; rfl⟩
    · intro kM hkM
      rw [List.mem_singleton.1 hkM]
      refine ⟨⟨v, [], by subst hM; rfl, hvn⟩, ?_, by subst hM; simp, by subst hM; rfl,
        by subst hM; simp, by subst hM; exact ⟨rfl, rfl, rfl, rfl⟩, fun r hr => ⟨hl r hr, ?_,
          fun vc hvc => succ_lt_two_pow (hb r hr vc hvc)⟩, hc⟩
      · subst hM
        intro u hu
        rw [List.mem_singleton.1 hu, hvn]
        simp
      · intro vc hvc
        refine hb r hr vc ?_
        subst hM
        exact hvc
    · intro x hx
      have := hx (hazName, v) (by simp) hH
      rw [hvl] at this
      simp [jointDens, hd x this]
    · intro kv hkv
      rw [List.mem_singleton.1 hkv, hx0, hvl]
      exact hpos
    · intro k hk
      have : k = hazName := by simpa using hk
      rw [this]

theorem mem_structRows_zip {n : ℕ} {l : List ℚ} (hl : l.length = n) {a j : ℕ} (hj : j < n) (ha : a < 2) :
    ([a, j], if a = 0 then l.getD j 0 else 1 - l.getD j 0) ∈
      (structRows n).zip (l.flatMap fun p => [p, 1 - p]) := by
  have key : ∀ (l : List ℚ) (b : ℕ),
      ((List.range' b l.length).flatMap fun hs => [[0, hs], [1, hs]]).zip
        (l.flatMap fun p => [p, 1 - p]) =
      (l.zipIdx b).flatMap fun pi => [([0, pi.2], pi.1), ([1, pi.2], 1 - pi.1)] := by
    intro l
    induction l with
    | nil => simp
    | cons p l ih =>
      intro b
      rw [List.length_cons, List.range'_succ, List.zipIdx_cons]
      simp only [List.flatMap_cons, List.cons_append, List.nil_append, List.zip_cons_cons, ih]
  unfold structRows
  rw [List.range_eq_range', ← hl, key, List.mem_flatMap]
  rw [← hl] at hj
  refine ⟨(l[j], j), ?_, ?_⟩
  · rw [List.mem_zipIdx_iff_getElem?]
    simp [hj]
  · have : l.getD j 0 = l[j] := by simp [hj]
    rw [this]
    rcases (by omega : a = 0 ∨ a = 1) with rfl | rfl <;> simp

theorem nodup_structRows (n : ℕ) : (structRows n).Nodup := by
  unfold structRows
  rw [List.nodup_flatMap]
  refine ⟨fun i _ => by simp, List.nodup_range.imp fun {a b} hab => ?_⟩
  intro r hr hr'
  simp only [List.mem_cons, List.not_mem_nil, or_false] at hr hr'
  rcases hr with rfl | rfl <;> rcases hr' with h | h <;> simp_all

theorem length_flatMap_two {α : Type} (l : List α) {β : Type} (f g : α → β) :
    (l.flatMap fun a => [f a, g a]).length = 2 * l.length := by
  induction l with
  | nil => rfl
  | cons a l ih => rw [List.flatMap_cons, List.length_append, ih]; simp; omega

/-- One structure. -/
theorem powerStruct_inv (h : PowerInv H B x0 w d []) {n : ℕ} {vh : Variable Name}
    (hvh : (hazName, vh) ∈ d.2) (hn : vh.values.length = n) {sp : Name × List ℚ}
    (hsp : sp.2.length = n) (hk : xName sp.1 ∉ d.2.map Prod.fst) (hH : xName sp.1 ∉ H)
    (hHz : hazName ∉ H) (hx0 : x0 (xName sp.1) = 1) :
    ∃ d' v, powerStruct n d sp = .ok d' ∧ d'.2 = d.2 ++ [(xName sp.1, v)] ∧ v.values.length = 2 ∧
      PowerInv H (B ++ [xName sp.1]) x0
        (fun x => w x * if x (xName sp.1) = 0 then sp.2.getD (x hazName) 0
          else 1 - sp.2.getD (x hazName) 0) d' [] := by
  obtain ⟨v, hv⟩ : ∃ v, v = Variable.mk' (xName sp.1) [0, 1] .dflt := ⟨_, rfl⟩
  have hvn : v.name = xName sp.1 := by rw [hv]; rfl
  have hvl : v.values.length = 2 := by rw [hv]; rfl
  have hvB : v.B = some (genB v.values.length) := by
    rw [hv, ← rangeValues_two]; exact mk'_table _ (by omega) (by omega)
  obtain ⟨hh1, hh2, -⟩ := h.var _ hvh
  simp only at hh1 hh2
  have hkd : xName sp.1 ∉ d.1.map Prod.fst := by rw [h.keys]; exact hk
  obtain ⟨M, hM⟩ : ∃ M : Cpm Name, M = { vars := [v, vh], noChild := 1, C := structRows n, p := sp.2.flatMap fun p => [p, 1 - p] } := ⟨_, rfl⟩
  have hmem : ∀ r ∈ M.C, ∃ a j, a < 2 ∧ j < n ∧ r = [a, j] := by
    intro r hr
    subst hM
    simp only [structRows, List.mem_flatMap, List.mem_range] at hr
    obtain ⟨j, hj, hr⟩ := hr
    simp only [List.mem_cons, List.not_mem_nil, or_false] at hr
    rcases hr with rfl | rfl
    · exact ⟨0, j, by omega, hj, rfl⟩
    · exact ⟨1, j, by omega, hj, rfl⟩
  have hb : AllBasic M := by
    intro r hr vc hvc
    obtain ⟨a, j, ha, hj, rfl⟩ := hmem r hr
    subst hM
    have : vc = (v, a) ∨ vc = (vh, j) := by simpa using hvc
    rcases this with rfl | rfl
    · exact hvl ▸ ha
    · exact hn ▸ hj
  have hl : ∀ r ∈ M.C, r.length = M.vars.length := by
    intro r hr
    obtain ⟨a, j, ha, hj, rfl⟩ := hmem r hr
    subst hM
    rfl
  have ht : ∀ u ∈ M.vars, u.B = some (genB u.values.length) := by
    subst hM
    intro u hu
    simp only [List.mem_cons, List.not_mem_nil, or_false] at hu
    rcases hu with rfl | rfl
    · exact hvB
    · exact hh2
  have hnew : NewCpm d x0 (xName sp.1) v [vh] M := by
    refine NewCpm.of_basic hk hvn hvB ⟨2, by omega, by rw [hv, rangeValues_two]; rfl⟩
      (by subst hM; rfl) (by simp) ?_ (by simp) (by subst hM; rfl) ?_
      (by subst hM; exact ⟨rfl, rfl, rfl, rfl⟩) hl hb (by rw [hx0, hvl]; omega)
    · intro u hu
      rw [List.mem_singleton.1 hu, hh1]
      exact hvh
    · subst hM
      simp only
      rw [length_flatMap_two, structRows, length_flatMap_two, List.length_range, hsp]
  have hdens : ∀ x : Name → ℕ, x hazName < n → x (xName sp.1) < 2 → dens M x =
      if x (xName sp.1) = 0 then sp.2.getD (x hazName) 0 else 1 - sp.2.getD (x hazName) 0 := by
    intro x h1 h2
    refine dens_basic ht hl hb (by subst hM; exact nodup_structRows n) ?_
    subst hM
    simp only [List.map_cons, List.map_nil, hvn, hh1]
    exact mem_structRows_zip hsp h1 h2
  have hz0 : x0 hazName < n := hn ▸ h.valid0 _ hvh
  refine ⟨(d.1 ++ [(xName sp.1, M)], d.2 ++ [(xName sp.1, v)]), v, ?_, rfl, hvl, ?_⟩
  · unfold powerStruct
    simp only
    rw [← hv, itemSet_new hk, h.itemGet hk v hvh, ok_bind, ← hM, hnew.made, ok_bind,
      itemSet_new hkd]
    rfl
  · refine h.addBase hnew hH ?_ fun x hx hxk => ?_
    · refine ⟨[1, x0 hazName], ?_, ?_⟩
      · subst hM
        simp only [structRows, List.mem_flatMap, List.mem_range]
        exact ⟨x0 hazName, hz0, by simp⟩
      · have hr : [1, x0 hazName] ∈ M.C := by
          subst hM
          simp only [structRows, List.mem_flatMap, List.mem_range]
          exact ⟨x0 hazName, hz0, by simp⟩
        rw [basic_match ht (hl _ hr) (hb _ hr)]
        subst hM
        simp [hvn, hh1, hx0]
    · exact hdens x (hn ▸ hx _ hvh hHz) (hvl ▸ hxk)

/-- The probability of the states of the structures `l` given the hazard. -/
def structProb (l : List (Name × List ℚ)) (x : Name → ℕ) : ℚ :=
  (l.map fun sp => if x (xName sp.1) = 0 then sp.2.getD (x hazName) 0
    else 1 - sp.2.getD (x hazName) 0).prod

/-- All structures. -/
theorem powerStructs_inv {n : ℕ} {vh : Variable Name} (hn : vh.values.length = n)
    (hHz : hazName ∉ H) : ∀ {l : List (Name × List ℚ)} {d : PowerDicts} {B : List Name}
    {w : (Name → ℕ) → ℚ}, PowerInv H B x0 w d [] → (hazName, vh) ∈ d.2 →
    (∀ sp ∈ l, sp.2.length = n ∧ xName sp.1 ∉ H ∧ x0 (xName sp.1) = 1) →
    (d.2.map Prod.fst ++ l.map fun sp => xName sp.1).Nodup →
    ∃ d' V, l.foldlM (powerStruct n) d = .ok d' ∧ d'.2 = d.2 ++ V ∧
      (∀ sp ∈ l, ∃ v, (xName sp.1, v) ∈ d'.2 ∧ v.values.length = 2) ∧
      PowerInv H (B ++ l.map fun sp => xName sp.1) x0 (fun x => w x * structProb l x) d' []
  | [], d, B, w, h, _, _, _ => by
    refine ⟨d, [], rfl, by simp, by simp, ?_⟩
    have : (fun x => w x * structProb [] x) = w := by funext x; simp [structProb]
    rw [this, List.map_nil, List.append_nil]
    exact h
  | sp :: l, d, B, w, h, hvh, hl, hnd => by
    obtain ⟨h1, h2, h3⟩ := hl sp (by simp)
    have hk : xName sp.1 ∉ d.2.map Prod.fst := fun hc => by
      have := (List.nodup_append.1 hnd).2.2 _ hc (xName sp.1) (by simp)
      exact this rfl
    obtain ⟨d1, v, e1, e2, e3, e4⟩ := powerStruct_inv h hvh hn h1 hk h2 hHz h3
    obtain ⟨d', V, f1, f2, f3, f4⟩ := powerStructs_inv hn hHz e4
      (by rw [e2]; exact List.mem_append_left _ hvh) (fun sp hsp => hl sp (List.mem_cons_of_mem _ hsp))
      (by rw [e2]; simpa using hnd)
    refine ⟨d', (xName sp.1, v) :: V, ?_, by rw [f2, e2]; simp, ?_, ?_⟩
    · rw [List.foldlM_cons, e1, ok_bind, f1]
    · intro sp' hsp'
      rcases List.mem_cons.1 hsp' with rfl | hsp'
      · exact ⟨v, by rw [f2, e2]; simp, e3⟩
      · exact f3 sp' hsp'
    · have : (fun x => w x * structProb (sp :: l) x) = fun x =>
          (w x * if x (xName sp.1) = 0 then sp.2.getD (x hazName) 0
            else 1 - sp.2.getD (x hazName) 0) * structProb l x := by
        funext x
        simp only [structProb, List.map_cons, List.prod_cons]
        ring
      rw [this]
      simpa using f4

theorem nodup_countRows (k : ℕ) : (countRows k).Nodup := by
  unfold countRows
  rw [List.nodup_flatMap]
  refine ⟨fun i _ => by simp, List.nodup_range.imp fun {a b} hab => ?_⟩
  intro r hr hr'
  simp only [List.mem_cons, List.not_mem_nil, or_false] at hr hr'
  rcases hr with rfl | rfl <;> rcases hr' with h | h <;> simp_all

theorem mem_countRows {k a b c : ℕ} (hb : b < 2) :
    [a, b, c] ∈ countRows k ↔ c < k ∧ a = c + if b = 0 then 1 else 0 := by
  unfold countRows
  rw [List.mem_flatMap]
  rcases (by omega : b = 0 ∨ b = 1) with rfl | rfl
  · simp only [List.mem_range, List.mem_cons, List.cons.injEq, List.not_mem_nil, or_false, if_pos]
    constructor
    · rintro ⟨i, hi, h | h⟩
      · omega
      · obtain ⟨rfl, -, rfl, -⟩ := h; exact ⟨hi, rfl⟩
    · rintro ⟨h1, rfl⟩
      exact ⟨c, h1, .inr (by simp)⟩
  · simp only [List.mem_range, List.mem_cons, List.cons.injEq, List.not_mem_nil, or_false]
    constructor
    · rintro ⟨i, hi, h | h⟩
      · obtain ⟨rfl, -, rfl, -⟩ := h; exact ⟨hi, by simp⟩
      · omega
    · rintro ⟨h1, h2⟩
      exact ⟨c, h1, .inl (by simp [h2])⟩

theorem downOf_eq (x : Name → ℕ) (s : Name) : downOf x s = decide (x (xName s) = 0) := rfl

/-- The number of damaged structures, first structure. -/
theorem powerCount_first (h : PowerInv H B x0 w d L) {s : Name} {vx : Variable Name}
    (hvx : (xName s, vx) ∈ d.2) (hx2 : vx.values.length = 2)
    (hk : nName s ∉ d.2.map Prod.fst) (hH : xName s ∉ H)
    (hx0 : x0 (nName s) = 0) (hxs : x0 (xName s) = 1) :
    ∃ M v, Cpm.mk' { vars := [v, vx], noChild := 1, C := [[1, 0], [0, 1]], p := [1, 1] } = .ok M ∧
      v = Variable.mk' (nName s) (rangeValues 2) .dflt ∧
      PowerInv H B x0 w (d.1 ++ [(nName s, M)], d.2 ++ [(nName s, v)])
        (L ++ [(nName s, fun down => [s].countP down)]) := by
  obtain ⟨v, hv⟩ : ∃ v, v = Variable.mk' (nName s) (rangeValues 2) .dflt := ⟨_, rfl⟩
  have hvn : v.name = nName s := by rw [hv]; rfl
  have hvl : v.values.length = 2 := by rw [hv, mk'_len]
  have hvB : v.B = some (genB v.values.length) := by rw [hv]; exact mk'_table _ (by omega) (by omega)
  obtain ⟨hh1, hh2, -⟩ := h.var _ hvx
  simp only at hh1 hh2
  obtain ⟨M, hM⟩ : ∃ M : Cpm Name, M = { vars := [v, vx], noChild := 1, C := [[1, 0], [0, 1]], p := [1, 1] } := ⟨_, rfl⟩
  have hb : AllBasic M := by
    subst hM
    intro r hr vc hvc
    simp only [List.mem_cons, List.not_mem_nil, or_false] at hr
    rcases hr with rfl | rfl
    · have : vc = (v, 1) ∨ vc = (vx, 0) := by simpa using hvc
      rcases this with rfl | rfl <;> simp only <;> omega
    · have : vc = (v, 0) ∨ vc = (vx, 1) := by simpa using hvc
      rcases this with rfl | rfl <;> simp only <;> omega
  have hl : ∀ r ∈ M.C, r.length = M.vars.length := by
    subst hM
    simp
  have ht : ∀ u ∈ M.vars, u.B = some (genB u.values.length) := by
    subst hM
    intro u hu
    simp only [List.mem_cons, List.not_mem_nil, or_false] at hu
    rcases hu with rfl | rfl
    · exact hvB
    · exact hh2
  have hnew : NewCpm d x0 (nName s) v [vx] M := by
    refine NewCpm.of_basic hk hvn hvB ⟨2, by omega, by rw [hv]; rfl⟩
      (by subst hM; rfl) (by simp) ?_ (by simp) (by subst hM; rfl) (by subst hM; rfl)
      (by subst hM; exact ⟨rfl, rfl, rfl, rfl⟩) hl hb (by rw [hx0, hvl]; omega)
    intro u hu
    rw [List.mem_singleton.1 hu, hh1]
    exact hvx
  refine ⟨M, v, hM ▸ hnew.made, hv, h.addDet hnew _ ?_ (fun x hx _ => ?_) fun down => ?_⟩
  · simp [downOf, hx0, hxs]
  · have hxv : x (xName s) < 2 := hx2 ▸ hx _ hvx hH
    rw [dens_basic_unit ht hl hb (by subst hM; simp) (by subst hM; rfl)]
    refine if_congr ?_ rfl rfl
    subst hM
    simp only [List.map_cons, List.map_nil, hvn, hh1, List.mem_cons, List.cons.injEq,
      List.not_mem_nil, or_false, and_true]
    rw [List.countP_cons, List.countP_nil, downOf_eq]
    by_cases e : x (xName s) = 0
    · simp [e]
    · have : x (xName s) = 1 := by omega
      simp [this]
  · rw [hvl, List.countP_cons, List.countP_nil]
    split <;> omega

/-- The number of damaged structures, later structures. -/
theorem powerCount_later (h : PowerInv H B x0 w d L) {s o : Name} {vx vo : Variable Name}
    (hvx : (xName s, vx) ∈ d.2) (hx2 : vx.values.length = 2) (hvo : (o, vo) ∈ d.2) {m : ℕ}
    (hm : vo.values.length = m + 1) (hm6 : m + 2 ≤ 6) {G : (Name → Bool) → ℕ} (hG : (o, G) ∈ L)
    (hk : nName s ∉ d.2.map Prod.fst) (hH : xName s ∉ H) (hoH : o ∉ H) (hox : o ≠ xName s)
    (hx0 : x0 (nName s) = 0) (hxs : x0 (xName s) = 1) (hxo : x0 o = 0) :
    ∃ M v, Cpm.mk' { vars := [v, vx, vo], noChild := 1, C := countRows vo.values.length
                     p := (countRows vo.values.length).map fun _ => 1 } = .ok M ∧
      v = Variable.mk' (nName s) (rangeValues (m + 2)) .dflt ∧
      PowerInv H B x0 w (d.1 ++ [(nName s, M)], d.2 ++ [(nName s, v)])
        (L ++ [(nName s, fun down => G down + [s].countP down)]) := by
  obtain ⟨v, hv⟩ : ∃ v, v = Variable.mk' (nName s) (rangeValues (m + 2)) .dflt := ⟨_, rfl⟩
  have hvn : v.name = nName s := by rw [hv]; rfl
  have hvl : v.values.length = m + 2 := by rw [hv, mk'_len]
  have hvB : v.B = some (genB v.values.length) := by rw [hv]; exact mk'_table _ (by omega) (by omega)
  obtain ⟨hh1, hh2, -⟩ := h.var _ hvx
  obtain ⟨ho1, ho2, -⟩ := h.var _ hvo
  simp only at hh1 hh2 ho1 ho2
  obtain ⟨M, hM⟩ : ∃ M : Cpm Name, M = { vars := [v, vx, vo], noChild := 1, C := countRows vo.values.length, p := (countRows vo.values.length).map fun _ => 1 } := ⟨_, rfl⟩
  have hmem : ∀ r ∈ M.C, ∃ a b c, a < m + 2 ∧ b < 2 ∧ c < m + 1 ∧ r = [a, b, c] := by
    intro r hr
    subst hM
    simp only [countRows, List.mem_flatMap, List.mem_range, hm] at hr
    obtain ⟨j, hj, hr⟩ := hr
    simp only [List.mem_cons, List.not_mem_nil, or_false] at hr
    rcases hr with rfl | rfl
    · exact ⟨j, 1, j, by omega, by omega, hj, rfl⟩
    · exact ⟨j + 1, 0, j, by omega, by omega, hj, rfl⟩
  have hb : AllBasic M := by
    intro r hr vc hvc
    obtain ⟨a, b, c, ha, hb, hc, rfl⟩ := hmem r hr
    subst hM
    have : vc = (v, a) ∨ vc = (vx, b) ∨ vc = (vo, c) := by simpa using hvc
    rcases this with rfl | rfl | rfl <;> simp only <;> omega
  have hl : ∀ r ∈ M.C, r.length = M.vars.length := by
    intro r hr
    obtain ⟨a, b, c, ha, hb, hc, rfl⟩ := hmem r hr
    subst hM
    rfl
  have ht : ∀ u ∈ M.vars, u.B = some (genB u.values.length) := by
    subst hM
    intro u hu
    simp only [List.mem_cons, List.not_mem_nil, or_false] at hu
    rcases hu with rfl | rfl | rfl
    · exact hvB
    · exact hh2
    · exact ho2
  have hnew : NewCpm d x0 (nName s) v [vx, vo] M := by
    refine NewCpm.of_basic hk hvn hvB ⟨m + 2, by omega, by rw [hv]; rfl⟩
      (by subst hM; rfl) (by simp) ?_ (by simp [hh1, ho1, hox.symm]) (by subst hM; rfl)
      (by subst hM; simp) (by subst hM; exact ⟨rfl, rfl, rfl, rfl⟩) hl hb (by rw [hx0, hvl]; omega)
    intro u hu
    simp only [List.mem_cons, List.not_mem_nil, or_false] at hu
    rcases hu with rfl | rfl
    · rw [hh1]; exact hvx
    · rw [ho1]; exact hvo
  refine ⟨M, v, hM ▸ hnew.made, hv, h.addDet hnew _ ?_ (fun x hx hxL => ?_) fun down => ?_⟩
  · have := h.glob0 _ hG
    simp only at this
    rw [← this, hxo, hx0]
    simp [downOf, hxs]
  · have hxv : x (xName s) < 2 := hx2 ▸ hx _ hvx hH
    have hov : x o < m + 1 := hm ▸ hx _ hvo hoH
    have hGo := hxL _ hG
    simp only at hGo
    rw [dens_basic_unit ht hl hb (by subst hM; exact nodup_countRows _) (by subst hM; rfl)]
    refine if_congr ?_ rfl rfl
    subst hM
    simp only [List.map_cons, List.map_nil, hvn, hh1, ho1]
    rw [mem_countRows hxv, hm, ← hGo, List.countP_cons, List.countP_nil, downOf_eq]
    simp [hov]
  · have h1 := h.bound _ hG vo hvo down
    simp only at h1
    rw [hvl, List.countP_cons, List.countP_nil]
    split <;> omega

/-- The states of the numbers of damaged structures. -/
def countStates : List Name → List Name → List GlobalState
  | _, [] => []
  | pre, s :: rest =>
    (nName s, fun down => (pre ++ [s]).countP down) :: countStates (pre ++ [s]) rest

/-- The numbers of damaged structures. -/
theorem powerCount_inv : ∀ {rest pre : List Name} {d : PowerDicts} {L : List GlobalState},
    PowerInv H B x0 w d L →
    (∀ s ∈ rest, (∃ vx, (xName s, vx) ∈ d.2 ∧ vx.values.length = 2) ∧ xName s ∉ H ∧
      nName s ∉ H ∧ x0 (nName s) = 0 ∧ x0 (xName s) = 1) →
    (d.2.map Prod.fst ++ rest.map nName).Nodup → pre.length + rest.length ≤ 5 →
    (∀ o, pre.getLast? = some o → nName o ∉ H ∧ x0 (nName o) = 0 ∧
      (nName o, fun down => pre.countP down) ∈ L ∧
      ∃ vo, (nName o, vo) ∈ d.2 ∧ vo.values.length = pre.length + 1) →
    ∃ d' V, powerCount pre.length (pre.getLast?.map nName) rest d = .ok d' ∧ d'.2 = d.2 ++ V ∧
      (∀ s ∈ rest, ∃ vn, (nName s, vn) ∈ d'.2 ∧ vn.values.length ≤ 6) ∧
      PowerInv H B x0 w d' (L ++ countStates pre rest)
  | [], pre, d, L, h, _, _, _, _ => ⟨d, [], rfl, by simp, by simp, by simpa [countStates] using h⟩
  | s :: rest, pre, d, L, h, hr, hnd, hlen, hlast => by
    obtain ⟨⟨vx, hvx, hx2⟩, hxH, hnH, hn0, hxs⟩ := hr s (by simp)
    have hk : nName s ∉ d.2.map Prod.fst := fun hc => by
      have := (List.nodup_append.1 hnd).2.2 _ hc (nName s) (by simp)
      exact this rfl
    have hkd : nName s ∉ d.1.map Prod.fst := by rw [h.keys]; exact hk
    obtain ⟨v, hv⟩ : ∃ v, v = Variable.mk' (nName s) (rangeValues (pre.length + 2)) .dflt := ⟨_, rfl⟩
    suffices hs : ∃ M, powerCount pre.length (pre.getLast?.map nName) (s :: rest) d =
        powerCount (pre.length + 1) (some (nName s)) rest
          (d.1 ++ [(nName s, M)], d.2 ++ [(nName s, v)]) ∧
        PowerInv H B x0 w (d.1 ++ [(nName s, M)], d.2 ++ [(nName s, v)])
          (L ++ [(nName s, fun down => (pre ++ [s]).countP down)]) by
      obtain ⟨M, e1, e2⟩ := hs
      obtain ⟨d', V, f1, f2, f4, f3⟩ := powerCount_inv (rest := rest) (pre := pre ++ [s]) e2
        (fun t ht => by
          obtain ⟨⟨u, hu, hu2⟩, hrest⟩ := hr t (List.mem_cons_of_mem _ ht)
          exact ⟨⟨u, List.mem_append_left _ hu, hu2⟩, hrest⟩)
        (by simpa using hnd) (by simp only [List.length_append, List.length_cons, List.length_nil] at hlen ⊢; omega)
        (fun o ho => by
          rw [List.getLast?_concat, Option.some.injEq] at ho
          subst ho
          refine ⟨hnH, hn0, by simp, v, by simp, ?_⟩
          rw [hv, mk'_len]
          simp)
      refine ⟨d', (nName s, v) :: V, ?_, by rw [f2]; simp, ?_, ?_⟩
      · rw [e1, ← f1]
        simp
      · intro t ht
        rcases List.mem_cons.1 ht with rfl | ht
        · refine ⟨v, by rw [f2]; simp, ?_⟩
          rw [hv, mk'_len]
          simp only [List.length_cons] at hlen
          omega
        · exact f4 t ht
      · rw [countStates]
        simpa using f3
    cases hp : pre.getLast? with
    | none =>
      have hpre : pre = [] := List.getLast?_eq_none_iff.1 hp
      subst hpre
      obtain ⟨M, v', e1, e2, e3⟩ := powerCount_first h hvx hx2 hk hxH hn0 hxs
      have hvv : v' = v := by rw [e2, hv]; rfl
      subst hvv
      refine ⟨M, ?_, e3⟩
      simp only [Option.map_none, powerCount, List.length_nil]
      simp only [List.length_nil] at hv
      rw [← hv, itemSet_new hk, h.itemGet hk v' hvx, ok_bind, e1, ok_bind, itemSet_new hkd]
    | some o =>
      obtain ⟨hoH, ho0, hG, vo, hvo, hvol⟩ := hlast o hp
      obtain ⟨M, v', e1, e2, e3⟩ := powerCount_later h hvx hx2 hvo hvol
        (by simp only [List.length_cons] at hlen; omega) hG hk hxH hoH (by simp [nName, xName])
        hn0 hxs ho0
      have hvv : v' = v := by rw [e2, hv]
      subst hvv
      refine ⟨M, ?_, ?_⟩
      · simp only [Option.map_some, powerCount]
        rw [← hv, itemSet_new hk, h.itemGet hk v' hvo, ok_bind, h.itemGet hk v' hvx, ok_bind, e1,
          ok_bind, itemSet_new hkd]
      · have : (fun down => (pre ++ [s]).countP down) =
            fun down : Name → Bool => pre.countP down + [s].countP down := by
          funext down
          rw [List.countP_append]
        rw [this]
        exact e3

/-- The closure time of one structure. -/
theorem powerClosure_inv (h : PowerInv H B x0 w d L) {s : Name} {vx vn : Variable Name}
    (hvx : (xName s, vx) ∈ d.2) (hx2 : vx.values.length = 2) (hvn' : (nName s, vn) ∈ d.2)
    (hm6 : vn.values.length ≤ 6) {G : (Name → Bool) → ℕ} (hG : (nName s, G) ∈ L)
    (hG0 : ∀ down, down s = true → 0 < G down)
    (hk : cName s ∉ d.2.map Prod.fst) (hH : xName s ∉ H) (hnH : nName s ∉ H)
    (hx0 : x0 (cName s) = 0) (hxs : x0 (xName s) = 1) :
    ∃ d' v, powerClosure d s = .ok d' ∧ d'.2 = d.2 ++ [(cName s, v)] ∧
      PowerInv H B x0 w d' (L ++ [(cName s, fun down => if down s then G down else 0)]) := by
  obtain ⟨hh1, hh2, -⟩ := h.var _ hvx
  obtain ⟨hn1, hn2, m, hm0, hnm⟩ := h.var _ hvn'
  simp only at hh1 hh2 hn1 hn2 hnm
  have hnl : vn.values.length = m := by rw [hnm, length_rangeValues]
  obtain ⟨v, hv⟩ : ∃ v, v = Variable.mk' (cName s) vn.values .dflt := ⟨_, rfl⟩
  have hvn : v.name = cName s := by rw [hv]; rfl
  have hvv : v.values = vn.values := by rw [hv]; rfl
  have hvl : v.values.length = m := by rw [hvv, hnl]
  have hvB : v.B = some (genB v.values.length) := by
    rw [hv, hnm]; exact mk'_table _ hm0 (hnl ▸ hm6)
  have hall : Finset.range m ∈ genB m := by
    rw [mem_genB]
    exact ⟨⟨0, Finset.mem_range.2 hm0⟩, fun i hi => Finset.mem_range.1 hi⟩
  obtain ⟨all, hal⟩ : ∃ all, all = (genB m).idxOf (Finset.range m) := ⟨_, rfl⟩
  have hall_lt : all + 1 < 2 ^ m := by
    have := List.idxOf_lt_length_iff.2 hall
    rw [length_genB] at this
    omega
  have hall_set : stateSet vn all = Finset.range m := by
    have := stateSet_idxOf (p := vn) hn2 (S := Finset.range m) (hnl ▸ hall)
    rw [hnl] at this
    rw [hal]
    exact this
  have hkd : cName s ∉ d.1.map Prod.fst := by rw [h.keys]; exact hk
  obtain ⟨M, hM⟩ : ∃ M : Cpm Name, M = { vars := [v, vx, vn], noChild := 1, C := closureRows all vn.values.length, p := (closureRows all vn.values.length).map fun _ => 1 } := ⟨_, rfl⟩
  have hMv : M.vars = [v, vx, vn] := by rw [hM]
  have hmem : ∀ r, r ∈ M.C ↔ r = [0, 1, all] ∨ ∃ j, 0 < j ∧ j < m ∧ r = [j, 0, j] := by
    intro r
    subst hM
    simp only [closureRows, List.mem_cons, List.mem_map, List.mem_filter, List.mem_range, hnl,
      decide_eq_true_eq]
    constructor
    · rintro (h | ⟨j, ⟨h1, h2⟩, rfl⟩)
      · exact .inl h
      · exact .inr ⟨j, h2, h1, rfl⟩
    · rintro (h | ⟨j, h2, h1, rfl⟩)
      · exact .inl h
      · exact .inr ⟨j, ⟨h1, h2⟩, rfl⟩
  have hmatch0 : ∀ x : Name → ℕ, RowMatches M.vars [0, 1, all] x ↔
      x (cName s) = 0 ∧ x (xName s) = 1 ∧ x (nName s) < m := by
    intro x
    rw [hMv, rowMatches_cons, rowMatches_cons, rowMatches_cons, hvn, hh1, hn1,
      stateSet_basic hvB (by omega), stateSet_basic hh2 (by omega), hall_set]
    simp [RowMatches]
  have hmatchj : ∀ (x : Name → ℕ) (j : ℕ), j < m → (RowMatches M.vars [j, 0, j] x ↔
      x (cName s) = j ∧ x (xName s) = 0 ∧ x (nName s) = j) := by
    intro x j hj
    rw [hMv, rowMatches_cons, rowMatches_cons, rowMatches_cons, hvn, hh1, hn1,
      stateSet_basic hvB (by omega), stateSet_basic hh2 (by omega), stateSet_basic hn2 (by omega)]
    simp [RowMatches]
  have hdisj : RowsDisjoint M := by
    unfold RowsDisjoint
    have hC : M.C = [0, 1, all] :: ((List.range m).filter fun v => 0 < v).map fun v => [v, 0, v] := by
      rw [hM, ← hnl]; rfl
    rw [hC, List.pairwise_cons]
    constructor
    · intro r hr x hx
      simp only [List.mem_map, List.mem_filter, List.mem_range, decide_eq_true_eq] at hr
      obtain ⟨j, ⟨h1, h2⟩, rfl⟩ := hr
      have a1 := (hmatch0 x).1 hx.1
      have a2 := (hmatchj x j h1).1 hx.2
      omega
    · rw [List.pairwise_map]
      refine List.Pairwise.imp_of_mem (R := fun a b : ℕ => a ≠ b) ?_
        (List.nodup_range.sublist List.filter_sublist)
      intro a b ha hb hab x hx
      have h1 : a < m := by simpa using (List.mem_filter.1 ha).1
      have h2 : b < m := by simpa using (List.mem_filter.1 hb).1
      have a1 := (hmatchj x a h1).1 hx.1
      have a2 := (hmatchj x b h2).1 hx.2
      omega
  have hnew : NewCpm d x0 (cName s) v [vx, vn] M := by
    refine ⟨hk, hvn, hvB, ⟨m, hm0, by rw [hvv, hnm]⟩, hMv, by simp, ?_, ?_, by rw [hM],
      by rw [hM]; simp, by rw [hM]; exact ⟨rfl, rfl, rfl, rfl⟩, ?_, by rw [hx0, hvl]; exact hm0⟩
    · intro u hu
      simp only [List.mem_cons, List.not_mem_nil, or_false] at hu
      rcases hu with rfl | rfl
      · rw [hh1]; exact hvx
      · rw [hn1]; exact hvn'
    · simp [hh1, hn1, xName, nName]
    · intro r hr
      rw [hMv]
      rcases (hmem r).1 hr with rfl | ⟨j, h1, h2, rfl⟩
      · refine ⟨rfl, by simpa [hvl] using hm0, fun vc hvc => ?_⟩
        have : vc = (v, 0) ∨ vc = (vx, 1) ∨ vc = (vn, all) := by simpa using hvc
        rcases this with rfl | rfl | rfl
        · exact succ_lt_two_pow (by simp only; omega)
        · exact succ_lt_two_pow (by simp only; omega)
        · simp only [hnl]; exact hall_lt
      · refine ⟨rfl, by simpa [hvl] using h2, fun vc hvc => ?_⟩
        have : vc = (v, j) ∨ vc = (vx, 0) ∨ vc = (vn, j) := by simpa using hvc
        rcases this with rfl | rfl | rfl <;> exact succ_lt_two_pow (by simp only; omega)
  have hc0 : x0 (nName s) < m := hnl ▸ h.valid0 _ hvn'
  refine ⟨(d.1 ++ [(cName s, M)], d.2 ++ [(cName s, v)]), v, ?_, rfl, ?_⟩
  · unfold powerClosure
    simp only
    rw [itemGet_ok h.nodup hvn', ok_bind]
    rw [← hv, hn2]
    simp only
    rw [pyIndex_eq, hnl, if_pos hall, ok_bind, itemSet_new hk, h.itemGet hk v hvx, ok_bind, ← hal]
    have hM' : M = { vars := [v, vx, vn], noChild := 1, C := closureRows all m, p := (closureRows all m).map fun _ => 1 } := by
      rw [hM, hnl]
    rw [← hM', hnew.made, ok_bind, itemSet_new hkd]
    rfl
  · refine h.addDet hnew _ ?_ (fun x hx hxL => ?_) fun down => ?_
    · rw [hx0, downOf_eq, hxs]
      simp
    · have hxv : x (xName s) < 2 := hx2 ▸ hx _ hvx hH
      have hnv : x (nName s) < m := hnl ▸ hx _ hvn' hnH
      have hGn := hxL _ hG
      simp only at hGn
      rw [dens_unit hdisj (by rw [hM])]
      refine if_congr ?_ rfl rfl
      rw [downOf_eq, ← hGn]
      constructor
      · rintro ⟨r, hr, hrm⟩
        rcases (hmem r).1 hr with rfl | ⟨j, h1, h2, rfl⟩
        · obtain ⟨e1, e2, -⟩ := (hmatch0 x).1 hrm
          rw [e1, e2]
          simp
        · obtain ⟨e1, e2, e3⟩ := (hmatchj x j h2).1 hrm
          rw [e1, e2, e3]
          simp
      · intro e
        by_cases hz : x (xName s) = 0
        · rw [hz] at e
          simp only [decide_true, if_true] at e
          have hpos := hG0 (downOf x) (by rw [downOf_eq, hz]; rfl)
          rw [← hGn] at hpos
          exact ⟨_, (hmem _).2 (.inr ⟨x (nName s), hpos, hnv, rfl⟩), (hmatchj x _ hnv).2 ⟨e, hz, rfl⟩⟩
        · simp only [hz, decide_false, Bool.false_eq_true, if_false] at e
          exact ⟨_, (hmem _).2 (.inl rfl), (hmatch0 x).2 ⟨e, by omega, hnv⟩⟩
    · have h1 := h.bound _ hG vn hvn' down
      simp only at h1
      rw [hvl]
      split
      · omega
      · exact hm0

/-- The states of the closure times. -/
theorem powerClosures_inv {T : Name → (Name → Bool) → ℕ} : ∀ {l : List Name} {d : PowerDicts}
    {L : List GlobalState}, PowerInv H B x0 w d L →
    (∀ s ∈ l, (∃ vx, (xName s, vx) ∈ d.2 ∧ vx.values.length = 2) ∧
      (∃ vn, (nName s, vn) ∈ d.2 ∧ vn.values.length ≤ 6) ∧
      (∃ G, (nName s, G) ∈ L ∧ ∀ down, (down s = true → 0 < G down) ∧
        T s down = if down s then G down else 0) ∧
      xName s ∉ H ∧ nName s ∉ H ∧ x0 (cName s) = 0 ∧ x0 (xName s) = 1) →
    (d.2.map Prod.fst ++ l.map cName).Nodup →
    ∃ d' V, l.foldlM powerClosure d = .ok d' ∧ d'.2 = d.2 ++ V ∧
      PowerInv H B x0 w d' (L ++ l.map fun s => (cName s, T s))
  | [], d, L, h, _, _ => ⟨d, [], rfl, by simp, by simpa using h⟩
  | s :: l, d, L, h, hl, hnd => by
    obtain ⟨⟨vx, hvx, hx2⟩, ⟨vn, hvn, hn6⟩, ⟨G, hG, hT⟩, hxH, hnH, hc0, hxs⟩ := hl s (by simp)
    have hk : cName s ∉ d.2.map Prod.fst := fun hc => by
      have := (List.nodup_append.1 hnd).2.2 _ hc (cName s) (by simp)
      exact this rfl
    obtain ⟨d1, v, e1, e2, e3⟩ := powerClosure_inv h hvx hx2 hvn hn6 hG (fun down => (hT down).1) hk
      hxH hnH hc0 hxs
    have hTs : (fun down : Name → Bool => if down s then G down else 0) = T s := by
      funext down
      rw [(hT down).2]
    rw [hTs] at e3
    obtain ⟨d', V, f1, f2, f3⟩ := powerClosures_inv (T := T) e3
      (fun t ht => by
        obtain ⟨⟨u, hu, hu2⟩, ⟨u', hu', hu6⟩, ⟨G', hG', hT'⟩, hrest⟩ :=
          hl t (List.mem_cons_of_mem _ ht)
        exact ⟨⟨u, by rw [e2]; exact List.mem_append_left _ hu, hu2⟩,
          ⟨u', by rw [e2]; exact List.mem_append_left _ hu', hu6⟩,
          ⟨G', List.mem_append_left _ hG', hT'⟩, hrest⟩)
      (by rw [e2]; simpa using hnd)
    refine ⟨d', (cName s, v) :: V, ?_, by rw [f2, e2]; simp, by simpa using f3⟩
    rw [List.foldlM_cons, e1, ok_bind, f1]

/-- A variable that is a function of variables which are themselves functions of the damage. -/
theorem PowerInv.addFun (h : PowerInv H B x0 w d L) {vs : List (Variable Name)} {var : Variable Name}
    {m : ℕ} {F : List ℕ → ℕ} (hsf : StateFun k vs M m F) (hMv : M.vars = var :: vs)
    (hvs : ∀ p ∈ vs, (p.name, p) ∈ d.2 ∧ p.name ∉ H) (hne : vs ≠ [])
    (hnd : (vs.map Variable.name).Nodup) (hk : k ∉ d.2.map Prod.fst) (G : (Name → Bool) → ℕ)
    (hG : ∀ x : Name → ℕ, (∀ kG ∈ L, x kG.1 = kG.2 (downOf x)) →
      F (vs.map fun v => x v.name) = G (downOf x))
    (hb : ∀ down, G down < m) (h0 : x0 k = G (downOf x0)) :
    PowerInv H B x0 w (d.1 ++ [(k, M)], d.2 ++ [(k, var)]) (L ++ [(k, G)]) := by
  obtain ⟨v, hv1, hv2, hv3, hv4⟩ := hsf.vars
  have hvv : v = var := by rw [hMv] at hv1; exact (List.cons.inj hv1).1.symm
  subst hvv
  have hvl : v.values.length = m := by rw [hv3, length_rangeValues]
  have hm0 : 0 < m := lt_of_le_of_lt (Nat.zero_le _) (hb (downOf x0))
  refine h.addDet ⟨hk, hv2, hv4, ⟨m, hm0, hv3⟩, hMv, hne, fun p hp => (hvs p hp).1, hnd, hsf.noChild,
    hsf.pLen, hsf.noCs, fun r hr => ?_, by rw [h0, hvl]; exact hb _⟩ G h0 (fun x hx hxL => ?_)
    (fun down => hvl ▸ hb down)
  · rw [hvl]
    exact hsf.rows r hr
  · rw [hsf.dens x fun p hp => hx _ (hvs p hp).1 (hvs p hp).2, hG x hxL]

theorem mapM_itemGet {d : PowerDicts} (hn : (d.2.map Prod.fst).Nodup) (f : Name → Name) :
    ∀ {l : List Name}, (∀ s ∈ l, ∃ v, (f s, v) ∈ d.2 ∧ v.name = f s) →
    ∃ vs, (l.mapM fun s => itemGet d.2 (f s)) = .ok vs ∧ vs.map Variable.name = l.map f ∧
      ∀ v ∈ vs, (v.name, v) ∈ d.2
  | [], _ => ⟨[], rfl, rfl, by simp⟩
  | s :: l, h => by
    obtain ⟨vs, e1, e2, e3⟩ := mapM_itemGet hn f (l := l) fun t ht => h t (List.mem_cons_of_mem _ ht)
    obtain ⟨v, hv, hvn⟩ := h s (by simp)
    refine ⟨v :: vs, ?_, by simp [e2, hvn], ?_⟩
    · rw [List.mapM_cons, itemGet_ok hn hv, ok_bind, e1, ok_bind]
      rfl
    · intro u hu
      rcases List.mem_cons.1 hu with rfl | hu
      · rw [hvn]; exact hv
      · exact e3 u hu

theorem PowerInv.has (h : PowerInv H B x0 w d L) {G : (Name → Bool) → ℕ} (hG : (k, G) ∈ L) :
    ∃ v, (k, v) ∈ d.2 ∧ v.name = k := by
  have : k ∈ d.2.map Prod.fst := by
    rw [h.order]
    exact List.mem_append_right _ (List.mem_map.2 ⟨_, hG, rfl⟩)
  obtain ⟨kv, hkv, rfl⟩ := List.mem_map.1 this
  exact ⟨kv.2, hkv, (h.var kv hkv).1⟩

theorem PowerInv.parents (h : PowerInv H B x0 w d L) {vs : List (Variable Name)} (hne : vs ≠ [])
    (hn : (vs.map Variable.name).Nodup) (hvs : ∀ v ∈ vs, (v.name, v) ∈ d.2) : RangeParents vs :=
  ⟨hne, hn, fun v hv => (h.var _ (hvs v hv)).2.1, fun v hv => (h.var _ (hvs v hv)).2.2⟩

/-- One link. -/
theorem powerLink_inv (h : PowerInv H B x0 w d L) {rep set : List Name} (hne : set ≠ [])
    (hnd : set.Nodup)
    (hset : ∀ s ∈ set, (cName s, fun down => repairDay rep down s) ∈ L ∧ cName s ∉ H ∧
      x0 (cName s) = 0)
    (hk : k ∉ d.2.map Prod.fst) (hk0 : x0 k = 0) :
    ∃ d' v, powerLink d (k, set) = .ok d' ∧ d'.2 = d.2 ++ [(k, v)] ∧
      PowerInv H B x0 w d' (L ++ [(k, fun down => linkDays rep down set)]) := by
  have hkd : k ∉ d.1.map Prod.fst := by rw [h.keys]; exact hk
  obtain ⟨vs, e1, e2, e3⟩ := mapM_itemGet h.nodup cName (l := set)
    fun s hs => h.has (hset s hs).1
  have hvne : vs ≠ [] := by
    rintro rfl
    have := congrArg List.length e2
    simp only [List.map_nil, List.length_nil, List.length_map] at this
    exact hne (List.length_eq_zero_iff.1 this.symm)
  have hvnd : (vs.map Variable.name).Nodup := by
    rw [e2]
    exact hnd.map fun a b hab => by simpa [cName] using hab
  have hvm : ∀ v ∈ vs, ∃ s ∈ set, cName s = v.name := fun v hv => by
    have := List.mem_map_of_mem (f := Variable.name) hv
    rw [e2] at this
    exact List.mem_map.1 this
  have hsv : ∀ s ∈ set, ∃ v ∈ vs, v.name = cName s := fun s hs => by
    have := List.mem_map_of_mem (f := cName) hs
    rw [← e2] at this
    exact List.mem_map.1 this
  have hval : ∀ x : Name → ℕ, (∀ kG ∈ L, x kG.1 = kG.2 (downOf x)) →
      (vs.map fun v => x v.name) = set.map (repairDay rep (downOf x)) := by
    intro x hx
    have : (vs.map fun v => x v.name) = (vs.map Variable.name).map x := by rw [List.map_map]; rfl
    rw [this, e2, List.map_map]
    exact List.map_congr_left fun s hs => hx _ (hset s hs).1
  obtain ⟨M, var, f1, f2, f3⟩ := sysMaxVal_stateFun k (h.parents hvne hvnd e3)
  refine ⟨(d.1 ++ [(k, M)], d.2 ++ [(k, var)]), var, ?_, rfl, ?_⟩
  · unfold powerLink
    simp only
    rw [e1, ok_bind, f1, ok_bind]
    simp only
    rw [itemSet_new hk, itemSet_new hkd]
    rfl
  · refine h.addFun f3 f2 (fun p hp => ⟨e3 p hp, ?_⟩) hvne hvnd hk _ (fun x hx => ?_)
      (fun down => ?_) ?_
    · obtain ⟨s, hs, e⟩ := hvm p hp
      rw [← e]
      exact (hset s hs).2.1
    · rw [hval x hx]
      rfl
    · unfold linkDays
      obtain ⟨v0, hv0⟩ := List.exists_mem_of_ne_nil _ hvne
      rw [foldr_max_lt]
      have hle : ∀ v ∈ vs, v.values.length ≤ (vs.map fun v => v.values.length).foldr max 0 :=
        fun v hv => mem_le_foldr_max (List.mem_map.2 ⟨v, hv, rfl⟩)
      refine ⟨?_, fun a ha => ?_⟩
      · obtain ⟨m, hm, e⟩ := (h.var _ (e3 v0 hv0)).2.2
        have := hle v0 hv0
        simp only at e
        rw [e, length_rangeValues] at this
        omega
      · obtain ⟨s, hs, rfl⟩ := List.mem_map.1 ha
        obtain ⟨v, hv, hvn⟩ := hsv s hs
        have h1 := h.bound _ (hset s hs).1 v (hvn ▸ e3 v hv) down
        exact lt_of_lt_of_le h1 (hle v hv)
    · have h1 := hval x0 h.glob0
      rw [hk0]
      unfold linkDays
      rw [← h1]
      have : (vs.map fun v => x0 v.name).foldr max 0 < 1 := by
        rw [foldr_max_lt]
        refine ⟨by omega, fun a ha => ?_⟩
        obtain ⟨v, hv, rfl⟩ := List.mem_map.1 ha
        obtain ⟨s, hs, e⟩ := hvm v hv
        rw [← e, (hset s hs).2.2]
        omega
      omega

/-- All links of a house. -/
theorem powerLinks_inv {rep : List Name} : ∀ {ks : List (Name × List Name)} {d : PowerDicts}
    {L : List GlobalState}, PowerInv H B x0 w d L →
    (∀ kl ∈ ks, kl.2 ≠ [] ∧ kl.2.Nodup ∧ x0 kl.1 = 0 ∧ ∀ s ∈ kl.2,
      (cName s, fun down => repairDay rep down s) ∈ L ∧ cName s ∉ H ∧ x0 (cName s) = 0) →
    (d.2.map Prod.fst ++ ks.map Prod.fst).Nodup →
    ∃ d' V, ks.foldlM powerLink d = .ok d' ∧ d'.2 = d.2 ++ V ∧
      PowerInv H B x0 w d' (L ++ ks.map fun kl => (kl.1, fun down => linkDays rep down kl.2))
  | [], d, L, h, _, _ => ⟨d, [], rfl, by simp, by simpa using h⟩
  | kl :: ks, d, L, h, hl, hnd => by
    obtain ⟨h1, h2, h3, h4⟩ := hl kl (by simp)
    have hk : kl.1 ∉ d.2.map Prod.fst := fun hc => by
      have := (List.nodup_append.1 hnd).2.2 _ hc kl.1 (by simp)
      exact this rfl
    obtain ⟨d1, v, e1, e2, e3⟩ := powerLink_inv h h1 h2 h4 hk h3
    obtain ⟨d', V, f1, f2, f3⟩ := powerLinks_inv (rep := rep) (ks := ks) e3
      (fun kl' hkl' => by
        obtain ⟨g1, g2, g3, g4⟩ := hl kl' (List.mem_cons_of_mem _ hkl')
        exact ⟨g1, g2, g3, fun s hs => ⟨List.mem_append_left _ (g4 s hs).1, (g4 s hs).2⟩⟩)
      (by rw [e2]; simpa using hnd)
    refine ⟨d', (kl.1, v) :: V, ?_, by rw [f2, e2]; simp, by simpa using f3⟩
    rw [List.foldlM_cons, e1, ok_bind, f1]

/-- The links and the house itself. -/
def houseStates (rep : List Name) (hs : Name × List (List Name)) : List GlobalState :=
  match hs.2 with
  | [_] => [(hs.1, cutDays rep hs.2)]
  | sets => (((List.range sets.length).map (linkName hs.1)).zip sets).map
      (fun kl => (kl.1, fun down => linkDays rep down kl.2)) ++ [(hs.1, cutDays rep hs.2)]

theorem houseStates_names (rep : List Name) (hs : Name × List (List Name)) :
    (houseStates rep hs).map Prod.fst = houseNames hs := by
  obtain ⟨k, sets⟩ := hs
  unfold houseStates houseNames
  simp only
  split
  · rfl
  · rw [List.map_append, List.map_map]
    have : (Prod.fst ∘ fun kl : Name × List Name =>
        ((kl.1, fun down => linkDays rep down kl.2) : GlobalState)) = Prod.fst := rfl
    rw [this, List.map_fst_zip (by simp)]
    split
    · rename_i hx _ _ _
      first
      | exact absurd rfl (hx _)
      | (rename_i h2; exact absurd rfl (h2 _))
    · rfl

/-- A house with several links. -/
theorem powerMin_inv (h : PowerInv H B x0 w d L) {rep : List Name} {names : List Name}
    {sets : List (List Name)} (hlen : names.length = sets.length) (hne : names ≠ [])
    (hnd : names.Nodup)
    (hL : ∀ kl ∈ names.zip sets, (kl.1, fun down => linkDays rep down kl.2) ∈ L ∧ kl.1 ∉ H ∧
      x0 kl.1 = 0)
    (hk : k ∉ d.2.map Prod.fst) (hk0 : x0 k = 0) :
    ∃ vs M var, names.mapM (itemGet d.2) = .ok vs ∧ sysMinVal k vs = .ok (M, var) ∧
      PowerInv H B x0 w (d.1 ++ [(k, M)], d.2 ++ [(k, var)]) (L ++ [(k, cutDays rep sets)]) := by
  have hz : ∀ j ∈ names, ∃ set ∈ sets, (j, set) ∈ names.zip sets := by
    intro j hj
    rw [← List.map_fst_zip (l₁ := names) (l₂ := sets) (by omega)] at hj
    obtain ⟨kl, hkl, rfl⟩ := List.mem_map.1 hj
    exact ⟨kl.2, (List.of_mem_zip hkl).2, hkl⟩
  obtain ⟨vs, e1, e2, e3⟩ := mapM_itemGet h.nodup id (l := names) fun j hj => by
    obtain ⟨set, hset, hm⟩ := hz j hj
    exact h.has (hL _ hm).1
  rw [List.map_id] at e2
  have hvne : vs ≠ [] := by
    rintro rfl
    exact hne e2.symm
  have hvnd : (vs.map Variable.name).Nodup := by rw [e2]; exact hnd
  have hvm : ∀ v ∈ vs, v.name ∈ names := fun v hv => e2 ▸ List.mem_map_of_mem hv
  have hval : ∀ x : Name → ℕ, (∀ kG ∈ L, x kG.1 = kG.2 (downOf x)) →
      (vs.map fun v => x v.name) = sets.map (linkDays rep (downOf x)) := by
    intro x hx
    have h1 : (vs.map fun v => x v.name) = (vs.map Variable.name).map x := by rw [List.map_map]; rfl
    have h2 : names.map x = (names.zip sets).map fun kl => x kl.1 := by
      conv_lhs => rw [← List.map_fst_zip (l₁ := names) (l₂ := sets) (by omega), List.map_map]
      rfl
    have h3 : sets.map (linkDays rep (downOf x)) =
        (names.zip sets).map fun kl => linkDays rep (downOf x) kl.2 := by
      conv_lhs => rw [← List.map_snd_zip (l₁ := names) (l₂ := sets) (by omega), List.map_map]
      rfl
    rw [h1, e2, h2, h3]
    exact List.map_congr_left fun kl hkl => hx _ (hL kl hkl).1
  obtain ⟨M, var, f1, f2, f3⟩ := sysMinVal_stateFun k (h.parents hvne hvnd e3)
  refine ⟨vs, M, var, e1, f1, ?_⟩
  refine h.addFun f3 f2 (fun p hp => ⟨e3 p hp, ?_⟩) hvne hvnd hk _ (fun x hx => ?_)
      (fun down => ?_) ?_
  · obtain ⟨set, hset, hm⟩ := hz _ (hvm p hp)
    exact (hL _ hm).2.1
  · rw [hval x hx]
    rfl
  · obtain ⟨m, em, hmm, -⟩ := min?_ne (l := vs.map fun v => v.values.length) (by simpa using hvne)
    rw [em, Option.getD_some]
    obtain ⟨v, hv, rfl⟩ := List.mem_map.1 hmm
    obtain ⟨set, hset, hm⟩ := hz _ (hvm v hv)
    have h1 := h.bound _ (hL _ hm).1 v (e3 v hv) down
    unfold cutDays
    obtain ⟨c, ec, -, hcl⟩ := min?_ne (l := sets.map (linkDays rep down))
      (by simpa using List.ne_nil_of_mem hset)
    rw [ec, Option.getD_some]
    exact lt_of_le_of_lt (hcl _ (List.mem_map_of_mem hset)) h1
  · have h1 := hval x0 h.glob0
    rw [hk0]
    unfold cutDays
    rw [← h1]
    obtain ⟨c, ec, hcm, -⟩ := min?_ne (l := vs.map fun v => x0 v.name) (by simpa using hvne)
    rw [ec, Option.getD_some]
    obtain ⟨v, hv, rfl⟩ := List.mem_map.1 hcm
    obtain ⟨set, hset, hm⟩ := hz _ (hvm v hv)
    exact (hL _ hm).2.2.symm

theorem cutDays_single (rep : List Name) (set : List Name) :
    cutDays rep [set] = fun down => linkDays rep down set := by
  funext down
  simp [cutDays]

/-- One house. -/
theorem powerHouse_inv (h : PowerInv H B x0 w d L) {rep : List Name}
    {hs : Name × List (List Name)} (hne : hs.2 ≠ [])
    (hsets : ∀ set ∈ hs.2, set ≠ [] ∧ set.Nodup ∧ ∀ s ∈ set,
      (cName s, fun down => repairDay rep down s) ∈ L ∧ cName s ∉ H ∧ x0 (cName s) = 0)
    (hnd : (d.2.map Prod.fst ++ houseNames hs).Nodup) (h0 : ∀ j ∈ houseNames hs, x0 j = 0)
    (hH : ∀ j ∈ houseNames hs, j ≠ hs.1 → j ∉ H) :
    ∃ d' V, powerHouse d hs = .ok d' ∧ d'.2 = d.2 ++ V ∧
      PowerInv H B x0 w d' (L ++ houseStates rep hs) := by
  obtain ⟨k, sets⟩ := hs
  simp only at hne hsets hH
  by_cases h1 : ∃ set, sets = [set]
  · obtain ⟨set, rfl⟩ := h1
    simp only [houseNames] at hnd h0
    obtain ⟨g1, g2, g3⟩ := hsets set (by simp)
    obtain ⟨d', v, e1, e2, e3⟩ := powerLink_inv h g1 g2 g3 (k := k) (fun hc =>
      (List.nodup_append.1 hnd).2.2 _ hc k (by simp) rfl) (h0 k (by simp))
    refine ⟨d', _, e1, e2, ?_⟩
    simp only [houseStates, cutDays_single]
    exact e3
  · have en : houseNames (k, sets) = (List.range sets.length).map (linkName k) ++ [k] := by
      unfold houseNames
      split
      · rename_i a hs
        exact absurd ⟨a, hs⟩ h1
      · rfl
    have es : houseStates rep (k, sets) = (((List.range sets.length).map (linkName k)).zip sets).map
        (fun kl => (kl.1, fun down => linkDays rep down kl.2)) ++ [(k, cutDays rep sets)] := by
      unfold houseStates
      split
      · rename_i a hs
        exact absurd ⟨a, hs⟩ h1
      · rfl
    obtain ⟨names, hnames⟩ : ∃ names, names = (List.range sets.length).map (linkName k) := ⟨_, rfl⟩
    have hlen : names.length = sets.length := by rw [hnames]; simp
    rw [en, ← hnames] at hnd h0 hH
    rw [es, ← hnames]
    have hzf : (names.zip sets).map Prod.fst = names := List.map_fst_zip (by omega)
    have hnd2 : (d.2.map Prod.fst ++ names).Nodup := by
      rw [← List.append_assoc] at hnd
      exact (List.nodup_append.1 hnd).1
    have hkn : k ∉ d.2.map Prod.fst ++ names := by
      rw [← List.append_assoc] at hnd
      exact fun hc => (List.nodup_append.1 hnd).2.2 _ hc k (by simp) rfl
    obtain ⟨d1, V, e1, e2, e3⟩ := powerLinks_inv (rep := rep) (ks := names.zip sets) h
      (fun kl hkl => by
        obtain ⟨g1, g2, g3⟩ := hsets kl.2 (List.of_mem_zip hkl).2
        exact ⟨g1, g2, h0 _ (List.mem_append_left _ (List.of_mem_zip hkl).1), g3⟩)
      (by rw [hzf]; exact hnd2)
    have hkeys : d1.2.map Prod.fst = d.2.map Prod.fst ++ names := by
      rw [e3.order, h.order, List.map_append, List.map_map, List.append_assoc]
      congr 2
    obtain ⟨vs, M, var, f1, f2, f3⟩ := powerMin_inv e3 (rep := rep) (k := k) hlen
      (fun hc => hne (List.length_eq_zero_iff.1 (by rw [← hlen, hc]; rfl)))
      (List.nodup_append.1 hnd2).2.1
      (fun kl hkl => by
        have hm := (List.of_mem_zip hkl).1
        refine ⟨List.mem_append_right _ (List.mem_map.2 ⟨kl, hkl, rfl⟩), ?_, ?_⟩
        · exact hH _ (List.mem_append_left _ hm) fun e =>
            hkn (List.mem_append_right _ (e ▸ hm))
        · exact h0 _ (List.mem_append_left _ hm))
      (by rw [hkeys]; exact hkn) (h0 k (by simp))
    refine ⟨(d1.1 ++ [(k, M)], d1.2 ++ [(k, var)]), V ++ [(k, var)], ?_, ?_, ?_⟩
    · unfold powerHouse
      split
      · rename_i a hs
        exact absurd ⟨a, hs⟩ h1
      · simp only
        rw [← hnames, e1, ok_bind, f1, ok_bind, f2, ok_bind]
        simp only
        rw [itemSet_new (by rw [e3.keys, hkeys]; exact hkn), itemSet_new (by rw [hkeys]; exact hkn)]
        rfl
    · simp [e2]
    · simpa using f3

/-- All houses. -/
theorem powerHouses_inv {rep : List Name} : ∀ {l : List (Name × List (List Name))} {d : PowerDicts}
    {L : List GlobalState}, PowerInv H B x0 w d L →
    (∀ hs ∈ l, hs.2 ≠ [] ∧ ∀ set ∈ hs.2, set ≠ [] ∧ set.Nodup ∧ ∀ s ∈ set,
      (cName s, fun down => repairDay rep down s) ∈ L ∧ cName s ∉ H ∧ x0 (cName s) = 0) →
    (d.2.map Prod.fst ++ l.flatMap houseNames).Nodup →
    (∀ hs ∈ l, ∀ j ∈ houseNames hs, x0 j = 0 ∧ (j ≠ hs.1 → j ∉ H)) →
    ∃ d' V, l.foldlM powerHouse d = .ok d' ∧ d'.2 = d.2 ++ V ∧
      PowerInv H B x0 w d' (L ++ l.flatMap (houseStates rep))
  | [], d, L, h, _, _, _ => ⟨d, [], rfl, by simp, by simpa using h⟩
  | hs :: l, d, L, h, hl, hnd, h0 => by
    obtain ⟨g1, g2⟩ := hl hs (by simp)
    rw [List.flatMap_cons, ← List.append_assoc] at hnd
    obtain ⟨d1, V1, e1, e2, e3⟩ := powerHouse_inv h g1 g2 (List.nodup_append.1 hnd).1
      (fun j hj => (h0 hs (by simp) j hj).1) (fun j hj => (h0 hs (by simp) j hj).2)
    have hkeys : d1.2.map Prod.fst = d.2.map Prod.fst ++ houseNames hs := by
      rw [e3.order, h.order, List.map_append, houseStates_names, List.append_assoc]
    obtain ⟨d', V, f1, f2, f3⟩ := powerHouses_inv (rep := rep) (l := l) e3
      (fun hs' hhs' => by
        obtain ⟨a1, a2⟩ := hl hs' (List.mem_cons_of_mem _ hhs')
        refine ⟨a1, fun set hset => ?_⟩
        obtain ⟨b1, b2, b3⟩ := a2 set hset
        exact ⟨b1, b2, fun s hs => ⟨List.mem_append_left _ (b3 s hs).1, (b3 s hs).2⟩⟩)
      (by rw [hkeys]; exact hnd) (fun hs' hhs' => h0 hs' (List.mem_cons_of_mem _ hhs'))
    refine ⟨d', V1 ++ V, ?_, by rw [f2, e2]; simp, by simpa using f3⟩
    rw [List.foldlM_cons, e1, ok_bind, f1]

/-! ### The whole network -/

theorem mem_countStates {s : Name} : ∀ {rest pre : List Name}, s ∈ rest →
    (nName s, fun down => (pre ++ rest.takeWhile (· ≠ s) ++ [s]).countP down) ∈ countStates pre rest
  | [], _, h => by simp at h
  | t :: rest, pre, h => by
    rw [countStates]
    by_cases e : t = s
    · subst e
      simp
    · refine List.mem_cons_of_mem _ ?_
      have h1 := mem_countStates (pre := pre ++ [t]) ((List.mem_cons.1 h).resolve_left (Ne.symm e))
      simpa [List.takeWhile_cons, e] using h1

theorem countStates_congr {down down' : Name → Bool} : ∀ {rest pre : List Name},
    (∀ s ∈ pre ++ rest, down s = down' s) → ∀ kG ∈ countStates pre rest, kG.2 down = kG.2 down'
  | [], _, _, kG, hkG => by simp [countStates] at hkG
  | t :: rest, pre, h, kG, hkG => by
    rw [countStates] at hkG
    rcases List.mem_cons.1 hkG with rfl | hkG
    · simp only
      refine List.countP_congr fun s hs => ?_
      rw [h s (by
        rcases List.mem_append.1 hs with hs | hs
        · exact List.mem_append_left _ hs
        · rw [List.mem_singleton.1 hs]; simp)]
    · refine countStates_congr (fun s hs => h s ?_) kG hkG
      simpa using hs

theorem countStates_names : ∀ (rest pre : List Name),
    (countStates pre rest).map Prod.fst = rest.map nName
  | [], _ => rfl
  | t :: rest, pre => by rw [countStates, List.map_cons, countStates_names rest, List.map_cons]

theorem repairDay_congr {rep : List Name} {down down' : Name → Bool} {s : Name} (hs : s ∈ rep)
    (h : ∀ s ∈ rep, down s = down' s) : repairDay rep down s = repairDay rep down' s := by
  unfold repairDay
  rw [h s hs]
  have : (rep.takeWhile (· ≠ s)).countP down = (rep.takeWhile (· ≠ s)).countP down' :=
    List.countP_congr fun t ht => by rw [h t ((List.takeWhile_sublist _).subset ht)]
  rw [this]

theorem linkDays_congr {rep : List Name} {down down' : Name → Bool} {set : List Name}
    (hs : ∀ s ∈ set, s ∈ rep) (h : ∀ s ∈ rep, down s = down' s) :
    linkDays rep down set = linkDays rep down' set := by
  unfold linkDays
  rw [List.map_congr_left fun s hs' => repairDay_congr (hs s hs') h]

theorem cutDays_congr {rep : List Name} {down down' : Name → Bool} {sets : List (List Name)}
    (hs : ∀ set ∈ sets, ∀ s ∈ set, s ∈ rep) (h : ∀ s ∈ rep, down s = down' s) :
    cutDays rep sets down = cutDays rep sets down' := by
  unfold cutDays
  rw [List.map_congr_left fun set hset => linkDays_congr (hs set hset) h]

theorem houseStates_congr {rep : List Name} {down down' : Name → Bool}
    {hs : Name × List (List Name)} (hh : ∀ set ∈ hs.2, ∀ s ∈ set, s ∈ rep)
    (h : ∀ s ∈ rep, down s = down' s) : ∀ kG ∈ houseStates rep hs, kG.2 down = kG.2 down' := by
  intro kG hkG
  unfold houseStates at hkG
  split at hkG
  · rw [List.mem_singleton.1 hkG]
    exact cutDays_congr hh h
  · rcases List.mem_append.1 hkG with hkG | hkG
    · obtain ⟨kl, hkl, rfl⟩ := List.mem_map.1 hkG
      exact linkDays_congr (hh _ (List.of_mem_zip hkl).2) h
    · rw [List.mem_singleton.1 hkG]
      exact cutDays_congr hh h

theorem self_mem_houseNames (hs : Name × List (List Name)) : hs.1 ∈ houseNames hs := by
  unfold houseNames
  split <;> simp

theorem self_mem_houseStates (rep : List Name) (hs : Name × List (List Name)) :
    (hs.1, cutDays rep hs.2) ∈ houseStates rep hs := by
  unfold houseStates
  split <;> simp

/-- The states of the variables that are functions of the damage. -/
def powerStates (rep : List Name) (lins : List (Name × List (List Name))) : List GlobalState :=
  countStates [] rep ++ (rep.map fun s => (cName s, fun down => repairDay rep down s)) ++
    lins.flatMap (houseStates rep)

theorem powerStates_names (rep : List Name) (lins : List (Name × List (List Name))) :
    (powerStates rep lins).map Prod.fst = rep.map nName ++ rep.map cName ++ lins.flatMap houseNames := by
  unfold powerStates
  rw [List.map_append, List.map_append, countStates_names, List.map_map, List.map_flatMap]
  congr 1
  simp only [houseStates_names]

theorem powerStates_congr {rep : List Name} {lins : List (Name × List (List Name))}
    {down down' : Name → Bool} (hl : ∀ hs ∈ lins, ∀ set ∈ hs.2, ∀ s ∈ set, s ∈ rep)
    (h : ∀ s ∈ rep, down s = down' s) : ∀ kG ∈ powerStates rep lins, kG.2 down = kG.2 down' := by
  intro kG hkG
  unfold powerStates at hkG
  rcases List.mem_append.1 hkG with hkG | hkG
  · rcases List.mem_append.1 hkG with hkG | hkG
    · exact countStates_congr (by simpa using h) kG hkG
    · obtain ⟨s, hs, rfl⟩ := List.mem_map.1 hkG
      exact repairDay_congr hs h
  · obtain ⟨hs, hhs, hkG⟩ := List.mem_flatMap.1 hkG
    exact houseStates_congr (hl hs hhs) h kG hkG

variable {haz : List (Name × ℚ)} {pfs : List (Name × List ℚ)} {rep : List Name}
  {lins : List (Name × List (List Name))}

/-- The assignment without damage. -/
def undamaged (pfs : List (Name × List ℚ)) (k : Name) : ℕ :=
  if k ∈ pfs.map (fun sp => xName sp.1) then 1 else 0

/-- The network that `quant_cpms` builds. -/
theorem quantCpms_inv (h : PowerOK haz pfs rep lins) :
    ∃ d vh, quantCpms haz pfs rep lins = .ok d ∧ (hazName, vh) ∈ d.2 ∧
      vh.values.length = haz.length ∧
      (∀ sp ∈ pfs, ∃ v, (xName sp.1, v) ∈ d.2 ∧ v.values.length = 2) ∧
      PowerInv (lins.map Prod.fst) (hazName :: pfs.map fun sp => xName sp.1) (undamaged pfs)
        (fun x => (haz.map Prod.snd).getD (x hazName) 0 * structProb pfs x) d
        (powerStates rep lins) := by
  obtain ⟨hX, hXs⟩ : ∃ X, X = pfs.map fun sp => xName sp.1 := ⟨_, rfl⟩
  have hnames := h.names
  rw [← hXs] at hnames
  obtain ⟨hz, hall⟩ := List.nodup_cons.1 hnames
  obtain ⟨h123, hHn, hd3⟩ := List.nodup_append.1 hall
  obtain ⟨h12, hcn, hd2⟩ := List.nodup_append.1 h123
  obtain ⟨hxn, hnn, hd1⟩ := List.nodup_append.1 h12
  have hHsub : ∀ j ∈ lins.map Prod.fst, j ∈ lins.flatMap houseNames := by
    intro j hj
    obtain ⟨hs, hhs, rfl⟩ := List.mem_map.1 hj
    exact List.mem_flatMap.2 ⟨hs, hhs, self_mem_houseNames hs⟩
  have hzH : hazName ∉ lins.map Prod.fst := fun hc =>
    hz (List.mem_append_right _ (hHsub _ hc))
  have hnot : ∀ j ∈ hX ++ rep.map nName ++ rep.map cName, j ∉ lins.map Prod.fst :=
    fun j hj hc => hd3 j hj j (hHsub j hc) rfl
  have hrx : ∀ s ∈ rep, xName s ∈ hX := by
    intro s hs
    rw [hXs]
    obtain ⟨sp, hsp, rfl⟩ := List.mem_map.1 (h.repairs.2 s hs)
    exact List.mem_map.2 ⟨sp, hsp, rfl⟩
  have hu1 : ∀ j ∈ hX, undamaged pfs j = 1 := fun j hj => if_pos (hXs ▸ hj)
  have hu0 : ∀ j, j ∉ hX → undamaged pfs j = 0 := fun j hj => if_neg (hXs ▸ hj)
  obtain ⟨d0, vh, a1, a2, a3, a4⟩ := powerHaz_inv (lins.map Prod.fst) haz h.hazards.1 h.hazards.2
    (undamaged pfs) (hu0 _ fun hc => hz (by simp [hc])) hzH
  have k0 : d0.2.map Prod.fst = [hazName] := by rw [a2]; rfl
  obtain ⟨d1, V1, b1, b2, b3, b4⟩ := powerStructs_inv (l := pfs) a3 hzH a4 (by rw [a2]; simp)
    (fun sp hsp => by
      have hm : xName sp.1 ∈ hX := by rw [hXs]; exact List.mem_map.2 ⟨sp, hsp, rfl⟩
      exact ⟨h.probs sp hsp, hnot _ (by simp [hm]), hu1 _ hm⟩)
    (by
      rw [k0, ← hXs]
      exact List.nodup_cons.2 ⟨fun hc => hz (by
        have hc' : hazName ∈ hX := hc
        simp [hc']), hxn⟩)
  rw [← hXs] at b4
  have k1 : d1.2.map Prod.fst = hazName :: hX := by rw [b4.order, List.map_nil, List.append_nil]; rfl
  have hxr : ∀ s ∈ rep, ∃ v, (xName s, v) ∈ d1.2 ∧ v.values.length = 2 := by
    intro s hs
    obtain ⟨sp, hsp, rfl⟩ := List.mem_map.1 (h.repairs.2 s hs)
    exact b3 sp hsp
  have hn0 : ∀ s ∈ rep, undamaged pfs (nName s) = 0 := fun s hs => hu0 _ fun hc =>
    hd1 _ hc _ (List.mem_map_of_mem hs) rfl
  have hc0 : ∀ s ∈ rep, undamaged pfs (cName s) = 0 := fun s hs => hu0 _ fun hc =>
    hd2 _ (List.mem_append_left _ hc) _ (List.mem_map_of_mem hs) rfl
  have hxH : ∀ s ∈ rep, xName s ∉ lins.map Prod.fst := fun s hs => hnot _ (by simp [hrx s hs])
  have hnH : ∀ s ∈ rep, nName s ∉ lins.map Prod.fst := fun s hs => hnot _
    (List.mem_append_left _ (List.mem_append_right _ (List.mem_map_of_mem hs)))
  have hcH : ∀ s ∈ rep, cName s ∉ lins.map Prod.fst := fun s hs => hnot _
    (List.mem_append_right _ (List.mem_map_of_mem hs))
  obtain ⟨d2, V2, c1, c2, c3, c4⟩ := powerCount_inv (rest := rep) (pre := []) b4
    (fun s hs => ⟨hxr s hs, hxH s hs, hnH s hs, hn0 s hs, hu1 _ (hrx s hs)⟩)
    (by
      rw [k1, List.cons_append]
      exact List.nodup_cons.2 ⟨fun hc => hz (List.mem_append_left _ (List.mem_append_left _ hc)), h12⟩)
    (by simpa using h.repairs.1) (by simp)
  rw [List.nil_append] at c4
  have k2 : d2.2.map Prod.fst = hazName :: (hX ++ rep.map nName) := by
    rw [c4.order, countStates_names]; simp
  have hxr2 : ∀ s ∈ rep, ∃ v, (xName s, v) ∈ d2.2 ∧ v.values.length = 2 := fun s hs => by
    obtain ⟨v, hv, h2⟩ := hxr s hs
    exact ⟨v, by rw [c2]; exact List.mem_append_left _ hv, h2⟩
  obtain ⟨d3, V3, e1, e2, e3⟩ := powerClosures_inv (T := fun s down => repairDay rep down s)
    (l := rep) c4
    (fun s hs => by
      refine ⟨hxr2 s hs, c3 s hs, ⟨_, mem_countStates (pre := []) hs, fun down => ⟨fun hd => ?_, ?_⟩⟩,
        hxH s hs, hnH s hs, hc0 s hs, hu1 _ (hrx s hs)⟩
      · rw [List.countP_append, List.countP_singleton, if_pos hd]
        omega
      · unfold repairDay
        by_cases hd : down s
        · rw [if_pos hd, if_pos hd, List.countP_append, List.countP_singleton, if_pos hd,
            List.nil_append]
        · rw [if_neg hd, if_neg hd])
    (by
      rw [k2, List.cons_append]
      exact List.nodup_cons.2 ⟨fun hc => hz (List.mem_append_left _ hc), h123⟩)
  have k3 : d3.2.map Prod.fst = hazName :: (hX ++ rep.map nName ++ rep.map cName) := by
    rw [e3.order, List.map_append, countStates_names, List.map_map]
    simp
  have hcut : ∀ hs ∈ lins, ∀ j ∈ houseNames hs, undamaged pfs j = 0 ∧
      (j ≠ hs.1 → j ∉ lins.map Prod.fst) := by
    intro hs hhs j hj
    have hjm : j ∈ lins.flatMap houseNames := List.mem_flatMap.2 ⟨hs, hhs, hj⟩
    refine ⟨hu0 _ fun hc => hd3 _ (by simp [hc]) _ hjm rfl, fun hne hc => ?_⟩
    obtain ⟨hs', hhs', rfl⟩ := List.mem_map.1 hc
    have hne' : hs ≠ hs' := fun e => hne (by rw [e])
    have hp := (List.nodup_flatMap.1 hHn).2
    have : Std.Symm (Function.onFun List.Disjoint houseNames) := ⟨fun a b hab => List.Disjoint.symm hab⟩
    have := hp.forall hhs hhs' hne'
    exact this hj (self_mem_houseNames hs')
  obtain ⟨d4, V4, g1, g2, g3⟩ := powerHouses_inv (rep := rep) (l := lins) e3
    (fun hs hhs => by
      obtain ⟨i1, i2⟩ := h.links hs hhs
      refine ⟨i1, fun set hset => ?_⟩
      obtain ⟨j1, j2, j3⟩ := i2 set hset
      exact ⟨j1, j2, fun s hs' => ⟨List.mem_append_right _ (List.mem_map.2 ⟨s, j3 s hs', rfl⟩),
        hcH s (j3 s hs'), hc0 s (j3 s hs')⟩⟩)
    (by
      rw [k3, List.cons_append]
      exact List.nodup_cons.2 ⟨hz, hall⟩)
    hcut
  refine ⟨d4, vh, ?_, ?_, a3, ?_, ?_⟩
  · unfold quantCpms
    rw [a1, ok_bind, b1, ok_bind]
    have c1' : powerCount 0 none rep d1 = .ok d2 := c1
    rw [c1', ok_bind, e1, ok_bind, g1]
  · rw [g2, e2, c2, b2, a2]
    simp
  · intro sp hsp
    obtain ⟨v, hv, h2⟩ := b3 sp hsp
    refine ⟨v, ?_, h2⟩
    rw [g2, e2, c2]
    exact List.mem_append_left _ (List.mem_append_left _ (List.mem_append_left _ hv))
  · rw [← hXs]
    unfold powerStates
    exact g3

end BNS
