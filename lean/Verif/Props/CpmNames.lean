import Verif.Proofs.CpmNames
import Verif.Props.CpmOps
import Verif.Props.CpmQuery

/-!
# Property C99: queries by names and by labels
-/

namespace BNS

set_option linter.unusedSectionVars false

variable {K : Type} [DecidableEq K] {U : K → Variable K}

/-- The positions of the labels. -/
theorem labels_query {M : Cpm K} (h : WF U M) {ns : List K} {ls : List ℚ} (hl : QueryLabelsOK U M ns ls) :
    QueryOK U M.getNames (ns.map U) ((ns.zip ls).map fun p => (U p.1).values.idxOf p.2) ∧
    ∀ x : K → ℕ, Consistent M.getNames (ns.map U)
      ((ns.zip ls).map fun p => (U p.1).values.idxOf p.2) x ↔ LabelsHold U ns ls x := by
  have hname : ∀ k ∈ ns, U k ∈ M.vars ∧ (U k).name = k := by
    intro k hk
    obtain ⟨v, hv, rfl⟩ := List.mem_map.1 (hl.scope k hk)
    rw [h.env v hv]; exact ⟨hv, rfl⟩
  have hz : (ns.map U).zip ((ns.zip ls).map fun p => (U p.1).values.idxOf p.2) =
      (ns.zip ls).map fun p => (U p.1, (U p.1).values.idxOf p.2) := by
    have hlen := hl.len
    clear hl hname
    induction ns generalizing ls with
    | nil => rfl
    | cons k ns ih =>
      cases ls with
      | nil => simp at hlen
      | cons l ls => simp [ih (by simpa using hlen)]
  have hlt : ∀ p ∈ ns.zip ls, (U p.1).values.idxOf p.2 < (U p.1).values.length := fun p hp =>
    List.idxOf_lt_length_iff.2 (hl.known p hp)
  have hpow : ∀ p ∈ (ns.map U).zip ((ns.zip ls).map fun p => (U p.1).values.idxOf p.2),
      p.2 + 1 < 2 ^ p.1.values.length := by
    rw [hz]
    intro p hp
    obtain ⟨q, hq, rfl⟩ := List.mem_map.1 hp
    have h1 := hlt q hq
    have h2 := Nat.lt_two_pow_self (n := (U q.1).values.length)
    simp only
    omega
  refine ⟨⟨⟨by simp [hl.len], ?_, fun p hp _ => hpow p hp⟩, by simpa using hl.ne, hpow, ?_⟩, ?_⟩
  · rw [hz]
    intro p hp _
    obtain ⟨q, hq, rfl⟩ := List.mem_map.1 hp
    exact congrArg U (hname _ (List.of_mem_zip hq).1).2
  · rw [List.map_map, List.map_congr_left (f := Variable.name ∘ U) (g := id) fun k hk => (hname k hk).2,
      List.map_id]
    exact hl.nodup
  · intro x
    unfold Consistent LabelsHold
    rw [hz]
    simp only [List.forall_mem_map]
    refine forall₂_congr fun p hp => ?_
    have hk := (List.of_mem_zip hp).1
    obtain ⟨hv, hn⟩ := hname _ hk
    rw [hn, stateSet_basic (h.table _ hv) (hlt p hp), Finset.mem_singleton]
    constructor
    · intro hx
      rw [hx (hl.scope _ hk), List.getElem?_eq_getElem (hlt p hp), List.getElem_idxOf (hlt p hp)]
    · intro hx _
      obtain ⟨hb, he⟩ := List.getElem?_eq_some_iff.1 hx
      rw [← he, (hl.once _ hk).idxOf_getElem]

theorem zip_map_U (ns : List K) (ls : List ℚ) :
    ((ns.map U).zip ls).map (fun p => p.1.values.idxOf p.2) =
      (ns.zip ls).map fun p => (U p.1).values.idxOf p.2 := by
  rw [List.zip_map_left, List.map_map]; rfl

theorem labels_ne {ns : List K} {ls : List ℚ} (hlen : ls.length = ns.length) (hne : ns ≠ []) :
    ls ≠ [] ∧ (ns.zip ls).map (fun p => (U p.1).values.idxOf p.2) ≠ [] := by
  cases ns with
  | nil => exact absurd rfl hne
  | cons k ns =>
    cases ls with
    | nil => simp at hlen
    | cons l ls => simp

/-! ## C99 -/

/-- A list of names stands for the variables of the CPM with these names, in every method. -/
theorem C99_names (M : Cpm K) (h : WF U M) (ns : List K) (hs : ∀ k ∈ ns, k ∈ M.getNames)
    (qs : List QState) (flag : Bool) :
    M.getProbQ (.names ns) qs flag = M.getProbQ (.vars (ns.map U)) qs flag ∧
    M.conditionQ (.names ns) qs = M.conditionQ (.vars (ns.map U)) qs ∧
    M.sumQ (.names ns) flag = M.sum (ns.map U) flag ∧
    isCompatibleQ M.C M.vars (.names ns) qs = isCompatibleQ M.C M.vars (.vars (ns.map U)) qs ∧
    ∀ cond : Option (List K × List QState × Bool),
      (∀ c ∈ cond, ∀ k ∈ c.1, k ∈ M.getNames) →
      M.getProbBndQ (.names ns) qs flag (cond.map fun c => (.names c.1, c.2)) =
        M.getProbBndQ (.vars (ns.map U)) qs flag (cond.map fun c => (.vars (c.1.map U), c.2)) := by
  have hp : ∀ l : List K, (∀ k ∈ l, k ∈ M.getNames) → ∀ q f,
      M.getProbQ (.names l) q f = M.getProbQ (.vars (l.map U)) q f := by
    intro l hl q f
    unfold Cpm.getProbQ
    rw [resolve_U h hl]; rfl
  refine ⟨hp ns hs qs flag, ?_, ?_, ?_, ?_⟩
  · unfold Cpm.conditionQ
    rw [resolve_U h hs]; rfl
  · unfold Cpm.sumQ
    rw [resolve_U h hs]; rfl
  · have : resolveIn M.vars (.names ns) = resolveIn M.vars (.vars (ns.map U)) := by
      simp only [resolveIn]
      rw [← List.flatMap_singleton' (ns.map U), List.flatMap_map]
      refine List.flatMap_congr fun k hk => ?_
      obtain ⟨v, hv, rfl⟩ := List.mem_map.1 (hs k hk)
      rw [h.env v hv]
      exact filter_name h.nodup hv
    unfold isCompatibleQ
    rw [this]
  · intro cond hc
    unfold Cpm.getProbBndQ
    rw [hp ns hs]
    cases cond with
    | none => rfl
    | some c =>
      obtain ⟨l, q, f⟩ := c
      have e1 : (QVars.names l).isNil = (QVars.vars (l.map U)).isNil := by cases l <;> rfl
      simp only [Option.map_some, hp l (hc _ rfl), e1]

/-- Numbers: the methods as described by C08, C11 and C12. -/
theorem C99_numbers (M : Cpm K) (vs : List (Variable K)) (ss : List ℕ) (flag : Bool) :
    M.getProbQ (.vars vs) (ss.map .idx) flag = M.getProb vs ss flag ∧
    M.conditionQ (.vars vs) (ss.map .idx) = M.condition vs ss ∧
    isCompatibleQ M.C M.vars (.vars vs) (ss.map .idx) = isCompatible M.C M.vars vs ss ∧
    ∀ cond : Option (List (Variable K) × List ℕ × Bool),
      M.getProbBndQ (.vars vs) (ss.map .idx) flag (cond.map fun c => (.vars c.1, c.2.1.map .idx, c.2.2)) =
        M.getProbBnd vs ss flag cond := by
  refine ⟨getProbQ_idx .., ?_, isCompatibleQ_idx .., ?_⟩
  · unfold Cpm.conditionQ Cpm.resolve
    rw [ok_bind]
    have : condStates vs (ss.map .idx) = .ok (ss.map .idx) := by cases ss <;> rfl
    rw [this, ok_bind, conditionRest_idx]
  · intro cond
    unfold Cpm.getProbBndQ Cpm.getProbBnd
    rw [getProbQ_idx]
    cases cond with
    | none => rfl
    | some c =>
      obtain ⟨cv, cs, cflag⟩ := c
      simp only [Option.map_some, getProbQ_idx]
      cases cv with
      | nil => rfl
      | cons v cv =>
        have : (QVars.vars (v :: cv)).isNil = false := rfl
        simp [this]

/-- `get_prob` by names and labels: the probability that each named variable is described by its
label. -/
theorem C99_get_prob (M : Cpm K) (h : WF U M) (hb : AllBasic M) (ns : List K) (ls : List ℚ)
    (hl : QueryLabelsOK U M ns ls) (x : K → ℕ) :
    M.getProbQ (.names ns) (ls.map .label) true =
      .ok (sumOver (M.vars.map fun v => (v.name, v.values.length))
        (fun y => if LabelsHold U ns ls y then dens M y else 0) x) := by
  obtain ⟨hq, hc⟩ := labels_query h hl
  have := C11_event_probability M h hb _ _ hq x
  simp only [hc] at this
  rw [← this]
  unfold Cpm.getProbQ
  rw [resolve_U h hl.scope, ok_bind, pyAssert_true (by simp [hl.len]), ok_bind,
    labelIndices_labels, ok_bind, zip_map_U, if_neg (labels_ne hl.len hl.ne).2]
  rw [List.zip_map_left]
  intro p hp
  obtain ⟨q, hq, rfl⟩ := List.mem_map.1 hp
  exact hl.known q hq

/-- `get_prob_bnd` by names and labels, with or without a condition, also given by names and labels: the
bounds for the states that the labels describe. -/
theorem C99_prob_bnd (M : Cpm K) (h : WF U M) (ns : List K) (ls : List ℚ) (hl : QueryLabelsOK U M ns ls)
    (flag : Bool) :
    M.getProbBndQ (.names ns) (ls.map .label) flag none =
      M.getProbBnd (ns.map U) ((ns.zip ls).map fun p => (U p.1).values.idxOf p.2) flag none ∧
    ∀ (cns : List K) (cls : List ℚ) (cflag : Bool), QueryLabelsOK U M cns cls →
      M.getProbBndQ (.names ns) (ls.map .label) flag (some (.names cns, cls.map .label, cflag)) =
        M.getProbBnd (ns.map U) ((ns.zip ls).map fun p => (U p.1).values.idxOf p.2) flag
          (some (cns.map U, (cns.zip cls).map fun p => (U p.1).values.idxOf p.2, cflag)) := by
  have key : ∀ (ns : List K) (ls : List ℚ) (flag : Bool), QueryLabelsOK U M ns ls →
      M.getProbQ (.names ns) (ls.map .label) flag =
        M.getProb (ns.map U) ((ns.zip ls).map fun p => (U p.1).values.idxOf p.2) flag := by
    intro ns ls flag hl
    unfold Cpm.getProbQ
    rw [resolve_U h hl.scope, ok_bind, pyAssert_true (by simp [hl.len]), ok_bind,
      labelIndices_labels, ok_bind, zip_map_U, if_neg (labels_ne hl.len hl.ne).2]
    rw [List.zip_map_left]
    intro p hp
    obtain ⟨q, hq, rfl⟩ := List.mem_map.1 hp
    exact hl.known q hq
  refine ⟨?_, fun cns cls cflag hc => ?_⟩
  · unfold Cpm.getProbBndQ Cpm.getProbBnd
    rw [key ns ls flag hl]
  · unfold Cpm.getProbBndQ Cpm.getProbBnd
    have hne := hc.ne
    rw [key ns ls flag hl]
    simp only [key cns cls cflag hc]
    cases cns with
    | nil => exact absurd rfl hne
    | cons k cns =>
      have : (QVars.names (k :: cns)).isNil = false := rfl
      simp [this]

/-- `condition` by names and labels: what is left is the distribution where each named variable is
described by its label. -/
theorem C99_condition (M : Cpm K) (h : WF U M) (ns : List K) (ls : List ℚ)
    (hl : QueryLabelsOK U M ns ls) :
    ∃ P, M.conditionQ (.names ns) (ls.map .label) = .ok P ∧ WF U P ∧ P.vars = M.vars ∧
      P.noChild = M.noChild ∧
      ∀ x, dens P x = if LabelsHold U ns ls x then dens M x else 0 := by
  obtain ⟨hq, hc⟩ := labels_query h hl
  obtain ⟨P, h1, h2, h3, h4, h5⟩ := C08_condition M h _ _ hq.ev hq.nodup
  simp only [hc] at h5
  refine ⟨P, ?_, h2, h3, h4, h5⟩
  rw [← h1]
  unfold Cpm.conditionQ
  rw [resolve_U h hl.scope, ok_bind, condStates_labels (labels_ne (U := U) hl.len hl.ne).1, ok_bind,
    zip_map_U, conditionRest_idx]
  rw [List.zip_map_left]
  intro p hp
  obtain ⟨q, hq, rfl⟩ := List.mem_map.1 hp
  exact hl.known q hq

/-- What is rejected: a name that is not in the CPM is an `IndexError`; with one state per variable,
a label that does not describe a state of its variable is an `AssertionError` in `get_prob` and a
`ValueError` in `condition`. -/
theorem C99_unknown (M : Cpm K) (flag : Bool) :
    (∀ ns qs, (∃ k ∈ ns, k ∉ M.getNames) →
      M.getProbQ (.names ns) qs flag = .error .index ∧
      M.conditionQ (.names ns) qs = .error .index ∧
      M.sumQ (.names ns) flag = .error .index ∧
      ∀ cond, M.getProbBndQ (.names ns) qs flag cond = .error .index) ∧
    (∀ vs qs, vs.length ≠ qs.length → M.getProbQ (.vars vs) qs flag = .error .assertion) ∧
    (∀ (vs : List (Variable K)) qs, vs.length = qs.length →
      (∃ p ∈ vs.zip qs, ∃ l, p.2 = .label l ∧ l ∉ p.1.values) →
      M.getProbQ (.vars vs) qs flag = .error .assertion) ∧
    (∀ (vs : List (Variable K)) (ls : List ℚ),
      (∃ p ∈ vs.zip ls, p.2 ∉ p.1.values) →
      M.conditionQ (.vars vs) (ls.map .label) = .error .value) := by
  have hu : ∀ ns, (∃ k ∈ ns, k ∉ M.getNames) → M.getVariables ns = .error .index := by
    intro ns hu
    refine mapM_error ?_ ?_
    · obtain ⟨k, hk, hn⟩ := hu
      refine ⟨k, hk, ?_⟩
      have : (M.vars.filter fun v => v.name = k) = [] := by
        rw [List.filter_eq_nil_iff]
        intro v hv he
        exact hn (List.mem_map.2 ⟨v, hv, by simpa using he⟩)
      rw [this]; rfl
    · intro k _ e' he
      cases hf : M.vars.filter fun v => v.name = k with
      | nil => rw [hf] at he; injection he with he; exact he.symm
      | cons w ws => rw [hf] at he; cases he
  refine ⟨fun ns qs h => ?_, fun vs qs h => ?_, fun vs qs hlen h => ?_, fun vs ls h => ?_⟩
  · have e : M.resolve (.names ns) = .error .index := hu ns h
    refine ⟨?_, ?_, ?_, fun cond => ?_⟩
    · unfold Cpm.getProbQ; rw [e]; rfl
    · unfold Cpm.conditionQ; rw [e]; rfl
    · unfold Cpm.sumQ; rw [e]; rfl
    · unfold Cpm.getProbBndQ Cpm.getProbQ; rw [e]; rfl
  · unfold Cpm.getProbQ Cpm.resolve
    rw [ok_bind, pyAssert_false h]; rfl
  · obtain ⟨⟨v, s⟩, hm, l, hs, hl⟩ := h
    subst hs
    unfold Cpm.getProbQ Cpm.resolve
    rw [ok_bind, pyAssert_true hlen, ok_bind, labelIndices_unknown hm hl]; rfl
  · unfold Cpm.conditionQ Cpm.resolve
    rw [ok_bind]
    cases ls with
    | nil => simp at h
    | cons l t =>
      have : (vs.zip ((l :: t).map QState.label)).mapM
          (fun vq => pyIndex vq.1.values vq.2.value) = .error .value := by
        rw [List.zip_map_right, List.mapM_map]
        refine mapM_error ?_ ?_
        · obtain ⟨p, hp, hn⟩ := h
          refine ⟨p, hp, ?_⟩
          show pyIndex p.1.values p.2 = _
          rw [pyIndex_eq, if_neg hn]
        · intro p _ e' he
          have he : pyIndex p.1.values p.2 = .error e' := he
          rw [pyIndex_eq] at he
          split at he
          · cases he
          · injection he with he; exact he.symm
      unfold condStates
      simp only [List.map_cons] at this ⊢
      rw [this]; rfl

/-- A list with both labels and numbers is always rejected by `get_prob`: once a label has been
translated the numbers are dropped, and the query is too short. -/
theorem C99_mixed_get_prob (M : Cpm K) (vs : List (Variable K)) (qs : List QState) (flag : Bool)
    (n : ℕ) (l : ℚ) (hn : QState.idx n ∈ qs) (hl : QState.label l ∈ qs) :
    M.getProbQ (.vars vs) qs flag = .error .assertion := by
  by_cases hlen : vs.length = qs.length
  · unfold Cpm.getProbQ Cpm.resolve
    rw [ok_bind, pyAssert_true hlen, ok_bind]
    rcases labelIndices_cases (vs.zip qs) with e | ⟨r, e, hr⟩
    · rw [e]; rfl
    · rw [List.map_snd_zip (by omega), List.length_zip, hlen, Nat.min_self] at hr
      have h1 := numbers_pos hn
      have h2 := numbers_lt hl
      have hne : r ≠ [] := by rintro rfl; simp at hr; omega
      rw [e, ok_bind, if_neg hne]
      unfold Cpm.getProb
      rw [pyAssert_false (by omega)]; rfl
  · exact (C99_unknown M flag).2.1 vs qs hlen


/-- In `condition` a list with both depends on the order.  When it starts with a label, a number is
looked for among the values and is a `ValueError` unless it is one of them; when it starts with a
number, a later label of a variable in the CPM is a `TypeError` if some row agrees with
everything. -/
theorem C99_mixed_condition (M : Cpm K) (h : WF U M) :
    (∀ (vs : List (Variable K)) (l : ℚ) (qs : List QState),
      (∃ p ∈ vs.zip (.label l :: qs), ∃ n, p.2 = .idx n ∧ (n : ℚ) ∉ p.1.values) →
      M.conditionQ (.vars vs) (.label l :: qs) = .error .value) ∧
    (∀ (vs : List (Variable K)) (n : ℕ) (qs : List QState), vs.length = qs.length + 1 →
      (∀ p ∈ vs.zip (.idx n :: qs), p.2.Known p.1) →
      QueryOK U M.getNames vs ((vs.zip (.idx n :: qs)).map fun p => p.2.pos p.1) →
      (∃ p ∈ vs.zip (.idx n :: qs), p.1.name ∈ M.getNames ∧ ∃ l, p.2 = .label l) →
      (∃ r ∈ M.C, Compatible M vs ((vs.zip (.idx n :: qs)).map fun p => p.2.pos p.1) r) →
      M.conditionQ (.vars vs) (.idx n :: qs) = .error .type) := by
  refine ⟨fun vs l qs hx => ?_, fun vs n qs hlen hk hq hl hr => ?_⟩
  · have : (vs.zip (.label l :: qs)).mapM (fun vq => pyIndex vq.1.values vq.2.value) =
        .error .value := by
      refine mapM_error ?_ ?_
      · obtain ⟨p, hp, n, hn, hv⟩ := hx
        refine ⟨p, hp, ?_⟩
        rw [hn]
        show pyIndex p.1.values (n : ℚ) = _
        rw [pyIndex_eq, if_neg hv]
      · intro p _ e' he
        rw [pyIndex_eq] at he
        split at he
        · cases he
        · injection he with he; exact he.symm
    have hcs : condStates vs (.label l :: qs) = .error .value := by
      unfold condStates
      simp only
      rw [this]; rfl
    unfold Cpm.conditionQ Cpm.resolve
    rw [ok_bind, hcs]; rfl
  · show M.conditionRest vs (.idx n :: qs) = _
    refine conditionRest_label h (by simp [hlen]) (fun p hp _ => hk p hp) hq.ev hl ?_
    obtain ⟨r, hr, hc⟩ := hr
    exact ⟨r, hr, (compatRow_iff h hq.ev hq.nodup hr).2 hc⟩

/-- The module-level `iscompatible` translates each label where it stands, so that there numbers and
labels can be mixed: the answer is the one for the positions, i.e. whether a row has an assignment
in common with the query.  A label of a variable in the CPM that describes none of its states is a
`ValueError`, a name that is not in the CPM an `AssertionError`. -/
theorem C99_compatible (M : Cpm K) (h : WF U M) :
    (∀ (vs : List (Variable K)) (qs : List QState), qs.length = vs.length →
      (∀ p ∈ vs.zip qs, p.2.Known p.1) →
      QueryOK U M.getNames vs ((vs.zip qs).map fun p => p.2.pos p.1) →
      ∃ mask, isCompatibleQ M.C M.vars (.vars vs) qs = .ok mask ∧ mask.length = M.C.length ∧
        ∀ i (hi : i < M.C.length), mask[i]? = some true ↔
          Compatible M vs ((vs.zip qs).map fun p => p.2.pos p.1) M.C[i]) ∧
    (∀ (ns : List K) (qs : List QState), ns.length = qs.length → (∃ k ∈ ns, k ∉ M.getNames) →
      isCompatibleQ M.C M.vars (.names ns) qs = .error .assertion) := by
  refine ⟨fun vs qs hlen hk hq => ?_, fun ns qs hlen hu => ?_⟩
  · refine ⟨_, (isCompatibleQ_pos _ _ _ _ hlen fun p hp _ => hk p hp).trans
      (isCompatible_ok h hq.ev), by simp, fun i hi => ?_⟩
    rw [List.getElem?_map, List.getElem?_eq_getElem hi, Option.map_some, Option.some.injEq]
    exact compatRow_iff h hq.ev hq.nodup (List.getElem_mem hi)
  · have hle : ∀ l : List K, (∀ k ∈ l, k ∈ M.getNames → True) →
        (resolveIn M.vars (.names l)).length ≤ l.length ∧
        ((∃ k ∈ l, k ∉ M.getNames) → (resolveIn M.vars (.names l)).length < l.length) := by
      intro l _
      induction l with
      | nil => exact ⟨by simp [resolveIn], by simp⟩
      | cons k l ih =>
        obtain ⟨i1, i2⟩ := ih fun _ _ _ => trivial
        simp only [resolveIn] at i1 i2
        simp only [resolveIn, List.flatMap_cons, List.length_append, List.length_cons]
        by_cases hk : k ∈ M.getNames
        · obtain ⟨v, hv, rfl⟩ := List.mem_map.1 hk
          rw [filter_name h.nodup hv]
          refine ⟨by rw [List.length_singleton]; omega, ?_⟩
          rintro ⟨k', hk', hn⟩
          rcases List.mem_cons.1 hk' with rfl | hk'
          · exact absurd hk hn
          · have := i2 ⟨k', hk', hn⟩
            rw [List.length_singleton]; omega
        · have : (M.vars.filter fun x => x.name = k) = [] := by
            rw [List.filter_eq_nil_iff]
            intro v hv he
            exact hk (List.mem_map.2 ⟨v, hv, by simpa using he⟩)
          rw [this]
          exact ⟨by rw [List.length_nil]; omega, fun _ => by rw [List.length_nil]; omega⟩
    have hlt := (hle ns fun _ _ _ => trivial).2 hu
    unfold isCompatibleQ
    simp only [ismemberOn]
    rw [condn_self, ok_bind]
    have : getValueGivenCondn qs ((resolveIn M.vars (.names ns)).map fun a =>
        (M.vars.map Variable.name).idxOf? a.name) = .error .assertion := by
      unfold getValueGivenCondn
      rw [if_neg (by simp; omega)]
    rw [this]; rfl

/-- Labels beyond the last variable are ignored by `condition`, while `get_prob` rejects them. -/
theorem C99_extra_labels (M : Cpm K) (vs : List (Variable K)) (ls more : List ℚ) (flag : Bool)
    (hlen : ls.length = vs.length) (hne : ls ≠ []) (hm : more ≠ []) :
    M.conditionQ (.vars vs) ((ls ++ more).map .label) = M.conditionQ (.vars vs) (ls.map .label) ∧
    M.getProbQ (.vars vs) ((ls ++ more).map .label) flag = .error .assertion := by
  constructor
  · unfold Cpm.conditionQ Cpm.resolve
    rw [ok_bind, ok_bind]
    have : condStates vs ((ls ++ more).map .label) = condStates vs (ls.map .label) := by
      obtain ⟨l, t, rfl⟩ := List.exists_cons_of_ne_nil hne
      have hz : vs.zip ((l :: t ++ more).map QState.label) = vs.zip ((l :: t).map QState.label) := by
        rw [List.map_append]
        have : ∀ (A : List (Variable K)) (S R : List QState), S.length = A.length →
            A.zip (S ++ R) = A.zip S := by
          intro A
          induction A with
          | nil => intros; rfl
          | cons a A ih =>
            intro S R hS
            cases S with
            | nil => simp at hS
            | cons s S => simp [ih S R (by simpa using hS)]
        exact this _ _ _ (by simpa using hlen)
      unfold condStates
      simp only [List.map_cons, List.cons_append] at hz ⊢
      rw [hz]
    rw [this]
  · refine (C99_unknown M flag).2.1 _ _ ?_
    have := List.length_pos_iff.2 hm
    simp; omega

/-- A label that describes two states stands for the first of them only: the probability of the
label `7` of a variable with the values `7, 7, 8` is the probability of its first state. -/
theorem C99_repeated_label :
    let v : Variable ℕ := Variable.mk' 0 [7, 7, 8] .dflt
    let M : Cpm ℕ := { vars := [v], noChild := 1, C := [[0], [1], [2]], p := [1/5, 3/10, 1/2] }
    M.getProbQ (.names [0]) [.label 7] true = .ok (1 / 5) := by
  decide +kernel

example : WF Ex.U Ex.A ∧ AllBasic Ex.A ∧ (∀ k ∈ [0], k ∈ Ex.A.getNames) := by
  unfold AllBasic; decide +kernel

example : QueryLabelsOK Ex.U Ex.A [0] [1] ∧ Ex.A.getProbQ (.names [0]) [.label 1] true = .ok (9 / 10) :=
  ⟨⟨by decide +kernel, by decide +kernel, by decide +kernel, by decide +kernel, by decide +kernel,
    by decide +kernel⟩, by decide +kernel⟩

example : QueryLabelsOK Ex.U Ex.D [2, 0] [20, 1] := by
  refine ⟨?_, ?_, ?_, ?_, ?_, ?_⟩ <;> decide +kernel

/-- The labels `20` and `1` of the variables 2 and 0. -/
example : (Ex.D.conditionQ (.names [2, 0]) [.label 20, .label 1]).map (fun P => (P.C, P.p)) =
    .ok ([[1, 1, 1]], [1]) := by decide +kernel

/-- A label and a number, in both orders. -/
example : Ex.D.getProbQ (.names [2, 0]) [.label 20, .idx 1] true = .error .assertion ∧
    Ex.D.conditionQ (.names [2, 1]) [.label 20, .idx 2] = .error .value ∧
    Ex.D.conditionQ (.names [0, 2]) [.idx 1, .label 20] = .error .type ∧
    isCompatibleQ Ex.D.C Ex.D.vars (.names [0, 2]) [.idx 1, .label 20] =
      .ok [false, false, false, false, true] := by decide +kernel

example : QueryOK Ex.U Ex.D.getNames [Ex.U 0, Ex.U 2]
    (([Ex.U 0, Ex.U 2].zip [QState.idx 1, QState.label 20]).map fun p => p.2.pos p.1) :=
  ⟨⟨by decide +kernel, by decide +kernel, by decide +kernel⟩, by decide +kernel, by decide +kernel,
    by decide +kernel⟩

end BNS
