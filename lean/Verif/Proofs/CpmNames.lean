import Verif.Spec.CpmNames
import Verif.Proofs.CpmProb
import Verif.Proofs.CpmProdList

/-! # Helper lemmas: queries by names and by labels -/

namespace BNS

set_option linter.unusedSectionVars false

variable {K : Type} [DecidableEq K] {U : K → Variable K}

theorem numbers_idx (ss : List ℕ) : numbers (ss.map .idx) = ss := by
  induction ss with
  | nil => rfl
  | cons s t ih => simp [numbers, ih]

theorem labelIndices_idx (vs : List (Variable K)) (ss : List ℕ) :
    labelIndices (vs.zip (ss.map .idx)) = .ok [] := by
  induction vs generalizing ss with
  | nil => rfl
  | cons v vs ih =>
    cases ss with
    | nil => rfl
    | cons s t => simpa [labelIndices] using ih t

/-- Numbers are passed on unchanged. -/
theorem getProbQ_idx (M : Cpm K) (vs : List (Variable K)) (ss : List ℕ) (flag : Bool) :
    M.getProbQ (.vars vs) (ss.map .idx) flag = M.getProb vs ss flag := by
  unfold Cpm.getProbQ Cpm.resolve
  rw [ok_bind, labelIndices_idx, ok_bind, if_pos rfl, numbers_idx, List.length_map]
  unfold Cpm.getProb
  by_cases h : vs.length = ss.length
  · rw [pyAssert_true h]; rfl
  · rw [pyAssert_false h]; rfl

theorem zip_idx {α : Type} (l : List α) (cs : List ℕ) :
    l.zip (cs.map QState.idx) = (l.zip cs).map fun p => (p.1, QState.idx p.2) := by
  rw [List.zip_map_right]; rfl

theorem getValueGivenCondn_map {α γ β : Type} (f : α → γ) (A : List α) (c : List (Option β)) :
    getValueGivenCondn (A.map f) c = (getValueGivenCondn A c).map (List.map f) := by
  unfold getValueGivenCondn
  rw [List.length_map]
  split
  · simp only [Except.map]
    congr 1
    rw [List.zip_map_right, List.filterMap_map, List.map_filterMap]
    congr 1
    funext p
    obtain ⟨o, a⟩ := p
    cases o <;> rfl
  · rfl

theorem isCompatibleQ_idx (C : List (List ℕ)) (scope vs : List (Variable K)) (ss : List ℕ) :
    isCompatibleQ C scope (.vars vs) (ss.map .idx) = isCompatible C scope vs ss := by
  unfold isCompatibleQ isCompatible resolveIn
  simp only [getValueGivenCondn_map]
  cases getValueGivenCondn vs (ismemberOn Variable.name vs scope) with
  | error e => rfl
  | ok cv =>
    rw [ok_bind, ok_bind]
    cases getValueGivenCondn ss (ismemberOn Variable.name vs scope) with
    | error e => rfl
    | ok cs =>
      simp only [Except.map, ok_bind]
      rw [zip_idx, List.zip_map_left, List.foldlM_map]
      rfl

theorem sampleStates_idx (res : List (Option ℕ)) (ss : List ℕ) (c : List ℕ) :
    sampleStates res (ss.map .idx) c = ((res.zip c).map fun ri =>
      match ri.1 with
      | some r => ss.getD r 0
      | none => ri.2).map .idx := by
  unfold sampleStates
  rw [List.map_map]
  refine List.map_congr_left fun p _ => ?_
  obtain ⟨o, a⟩ := p
  cases o with
  | none => rfl
  | some r => simp [List.getD, List.getElem?_map]

/-- Numbers are conditioned on as modelled before. -/
theorem conditionRest_idx (M : Cpm K) (vs : List (Variable K)) (ss : List ℕ) :
    M.conditionRest vs (ss.map .idx) = M.condition vs ss := by
  unfold Cpm.conditionRest Cpm.condition
  simp only [isCompatibleQ_idx, getValueGivenCondn_map, sampleStates_idx, getProbQ_idx]
  cases isCompatible M.C M.vars vs ss with
  | error e => rfl
  | ok mask =>
  rw [ok_bind, ok_bind]
  cases getValueGivenCondn vs (ismemberOn Variable.name vs M.vars) with
  | error e => rfl
  | ok cv =>
  rw [ok_bind, ok_bind]
  cases getValueGivenCondn ss (ismemberOn Variable.name vs M.vars) with
  | error e => rfl
  | ok cs =>
  simp only [Except.map, ok_bind]
  rw [zip_idx, List.zip_map_left, List.foldlM_map]
  rfl

/-- The variables found by name are those of `U`. -/
theorem getVariables_U {M : Cpm K} (h : WF U M) {ns : List K} (hs : ∀ k ∈ ns, k ∈ M.getNames) :
    M.getVariables ns = .ok (ns.map U) := by
  unfold Cpm.getVariables
  refine mapM_ok fun k hk => ?_
  obtain ⟨v, hv, rfl⟩ := List.mem_map.1 (hs k hk)
  have hm : v ∈ M.vars.filter fun w => w.name = v.name := List.mem_filter.2 ⟨hv, by simp⟩
  cases hf : M.vars.filter fun w => w.name = v.name with
  | nil => rw [hf] at hm; simp at hm
  | cons w ws =>
    have hw : w ∈ M.vars.filter fun u => u.name = v.name := by rw [hf]; simp
    have hw' := List.mem_filter.1 hw
    have : w.name = v.name := by simpa using hw'.2
    rw [← this, h.env w hw'.1]; rfl

theorem resolve_U {M : Cpm K} (h : WF U M) {ns : List K} (hs : ∀ k ∈ ns, k ∈ M.getNames) :
    M.resolve (.names ns) = .ok (ns.map U) := getVariables_U h hs

theorem filter_name {l : List (Variable K)} (hn : (l.map Variable.name).Nodup) {v : Variable K}
    (hv : v ∈ l) : l.filter (fun x => x.name = v.name) = [v] := by
  induction l with
  | nil => simp at hv
  | cons w l ih =>
    rw [List.map_cons, List.nodup_cons] at hn
    rcases List.mem_cons.1 hv with rfl | hv
    · rw [List.filter_cons, if_pos (by simp)]
      congr 1
      rw [List.filter_eq_nil_iff]
      intro u hu he
      exact hn.1 (List.mem_map.2 ⟨u, hu, by simpa using he⟩)
    · rw [List.filter_cons, if_neg, ih hn.2 hv]
      intro he
      exact hn.1 (List.mem_map.2 ⟨v, hv, (by simpa using he : w.name = v.name).symm⟩)

/-- All labels known: their positions. -/
theorem labelIndices_labels {vs : List (Variable K)} {ls : List ℚ}
    (hl : ∀ p ∈ vs.zip ls, p.2 ∈ p.1.values) :
    labelIndices (vs.zip (ls.map .label)) =
      .ok ((vs.zip ls).map fun p => p.1.values.idxOf p.2) := by
  induction vs generalizing ls with
  | nil => rfl
  | cons v vs ih =>
    cases ls with
    | nil => rfl
    | cons l t =>
      simp only [List.map_cons, List.zip_cons_cons, labelIndices]
      rw [if_pos (hl (v, l) (by simp)), ih fun p hp => hl p (by simp [hp])]
      rfl

theorem condStates_labels {vs : List (Variable K)} {ls : List ℚ} (hne : ls ≠ [])
    (hl : ∀ p ∈ vs.zip ls, p.2 ∈ p.1.values) :
    condStates vs (ls.map .label) =
      .ok (((vs.zip ls).map fun p => p.1.values.idxOf p.2).map .idx) := by
  cases ls with
  | nil => exact absurd rfl hne
  | cons l t =>
    have : (vs.zip ((l :: t).map QState.label)).mapM
        (fun vq => pyIndex vq.1.values vq.2.value) =
        .ok ((vs.zip (l :: t)).map fun p => p.1.values.idxOf p.2) := by
      rw [List.zip_map_right, List.mapM_map]
      refine mapM_ok fun p hp => ?_
      show pyIndex p.1.values p.2 = _
      rw [pyIndex_eq, if_pos (hl p hp)]
    unfold condStates
    simp only [List.map_cons] at this ⊢
    rw [this]; rfl

/-- The loop over the states ends with as many positions as there are labels, or with an error. -/
theorem labelIndices_cases (l : List (Variable K × QState)) :
    labelIndices l = .error .assertion ∨ ∃ r, labelIndices l = .ok r ∧
      r.length + (numbers (l.map Prod.snd)).length = l.length := by
  induction l with
  | nil => exact .inr ⟨[], rfl, rfl⟩
  | cons p t ih =>
    obtain ⟨v, s⟩ := p
    cases s with
    | idx n =>
      rcases ih with h | ⟨r, h, hr⟩
      · exact .inl h
      · refine .inr ⟨r, h, ?_⟩
        simp only [List.map_cons, numbers, List.length_cons]; omega
    | label x =>
      by_cases hx : x ∈ v.values
      · rcases ih with h | ⟨r, h, hr⟩
        · left; simp only [labelIndices]; rw [if_pos hx, h]; rfl
        · refine .inr ⟨v.values.idxOf x :: r, ?_, ?_⟩
          · simp only [labelIndices]; rw [if_pos hx, h]; rfl
          · simp only [List.map_cons, numbers, List.length_cons]; omega
      · left; simp only [labelIndices]; rw [if_neg hx]

theorem numbers_pos {qs : List QState} {n : ℕ} (h : QState.idx n ∈ qs) :
    0 < (numbers qs).length := by
  induction qs with
  | nil => simp at h
  | cons q t ih =>
    cases q with
    | idx m => simp [numbers]
    | label l =>
      simp only [numbers]
      exact ih (by simpa using h)

theorem numbers_lt {qs : List QState} {l : ℚ} (h : QState.label l ∈ qs) :
    (numbers qs).length < qs.length := by
  have hle : ∀ t : List QState, (numbers t).length ≤ t.length := by
    intro t
    induction t with
    | nil => simp [numbers]
    | cons q t ih => cases q <;> simp [numbers] <;> omega
  induction qs with
  | nil => simp at h
  | cons q t ih =>
    cases q with
    | idx m => simp only [numbers, List.length_cons]; have := ih (by simpa using h); omega
    | label l => simp only [numbers, List.length_cons]; have := hle t; omega

/-- An unknown label ends the loop. -/
theorem labelIndices_unknown {l : List (Variable K × QState)} {v : Variable K} {x : ℚ}
    (hm : (v, QState.label x) ∈ l) (hx : x ∉ v.values) : labelIndices l = .error .assertion := by
  induction l with
  | nil => simp at hm
  | cons p t ih =>
    rcases List.mem_cons.1 hm with rfl | hm'
    · simp only [labelIndices]; rw [if_neg hx]
    · obtain ⟨w, s⟩ := p
      cases s with
      | idx n => exact ih hm'
      | label y =>
        simp only [labelIndices]
        rw [ih hm']
        split <;> rfl

theorem stateIndex_known {v : Variable K} {q : QState} (h : q.Known v) :
    stateIndex v q = .ok (q.pos v) := by
  cases q with
  | idx n => rfl
  | label l =>
    show pyIndex v.values l = _
    have h : l ∈ v.values := h
    rw [pyIndex_eq, if_pos h]; rfl

/-- The variables in scope with their states and columns. -/
theorem zip_in_scope {γ : Type} (f : Variable K → Option ℕ) (A : List (Variable K)) (S : List γ)
    (hl : S.length = A.length) :
    ((A.filter fun a => (f a).isSome).zip
      (((A.zip S).filter fun as => (f as.1).isSome).map Prod.snd)).zip
      ((A.map f).filterMap id) = (A.zip S).filterMap fun as => (f as.1).map fun i => (as, i) := by
  induction A generalizing S with
  | nil => simp
  | cons v A ih =>
    cases S with
    | nil => simp at hl
    | cons c S =>
      have := ih S (by simpa using hl)
      simp only [List.map_cons, List.zip_cons_cons, List.filterMap_cons, List.filter_cons, id]
      cases h : f v with
      | none => simpa using this
      | some i => simpa using this

theorem foldlM_congr_list {α β : Type} (l : List α) (f g : β → α → Except Err β)
    (h : ∀ a ∈ l, ∀ b, f b a = g b a) (b : β) : l.foldlM f b = l.foldlM g b := by
  induction l generalizing b with
  | nil => rfl
  | cons a l ih =>
    rw [List.foldlM_cons, List.foldlM_cons, h a (by simp)]
    congr 1
    funext b'
    exact ih (fun a' ha' => h a' (by simp [ha'])) b'

theorem zip_pos {vs : List (Variable K)} {qs : List QState} :
    vs.zip ((vs.zip qs).map fun p => p.2.pos p.1) =
      (vs.zip qs).map fun p => (p.1, p.2.pos p.1) := by
  induction vs generalizing qs with
  | nil => rfl
  | cons v vs ih =>
    cases qs with
    | nil => rfl
    | cons q qs => simp [ih]

/-- `iscompatible` translates each label where it stands. -/
theorem isCompatibleQ_pos (C : List (List ℕ)) (scope vs : List (Variable K)) (qs : List QState)
    (hlen : qs.length = vs.length)
    (hk : ∀ p ∈ vs.zip qs, p.1.name ∈ scope.map Variable.name → p.2.Known p.1) :
    isCompatibleQ C scope (.vars vs) qs =
      isCompatible C scope vs ((vs.zip qs).map fun p => p.2.pos p.1) := by
  unfold isCompatibleQ isCompatible resolveIn
  simp only [ismemberOn]
  rw [condn_self, ok_bind, ok_bind, condn_other _ _ _ hlen, ok_bind,
    condn_other _ _ _ (by simp [hlen]), ok_bind, zip_in_scope _ _ _ hlen,
    zip_in_scope _ _ _ (by simp [hlen]), zip_pos, List.filterMap_map]
  have hmap : (vs.zip qs).filterMap ((fun as : Variable K × ℕ =>
      ((scope.map Variable.name).idxOf? as.1.name).map fun i => (as, i)) ∘
        fun p => (p.1, p.2.pos p.1)) =
      ((vs.zip qs).filterMap fun as : Variable K × QState =>
        ((scope.map Variable.name).idxOf? as.1.name).map fun i => (as, i)).map
        fun t => ((t.1.1, t.1.2.pos t.1.1), t.2) := by
    rw [List.map_filterMap]
    congr 1
    funext p
    simp [Option.map_map, Function.comp_def]
  rw [hmap, List.foldlM_map]
  refine foldlM_congr_list _ _ _ (fun t ht b => ?_) _
  obtain ⟨p, hp, he⟩ := List.mem_filterMap.1 ht
  rw [idxOf?_eq] at he
  split at he
  · rename_i hin
    simp only [Option.map_some, Option.some.injEq] at he
    subst he
    rw [stateIndex_known (hk p hp hin)]; rfl
  · simp at he

/-- A step that fails ends the loop, if the steps before it do not fail otherwise. -/
theorem foldlM_error_of {α β : Type} {l : List α} {f : β → α → Except Err β} {e : Err}
    (h1 : ∃ a ∈ l, ∀ b, f b a = .error e)
    (h2 : ∀ a ∈ l, ∀ b e', f b a = .error e' → e' = e) (b : β) : l.foldlM f b = .error e := by
  induction l generalizing b with
  | nil => simp at h1
  | cons a l ih =>
    rw [List.foldlM_cons]
    cases hf : f b a with
    | error e' => rw [h2 a (by simp) b e' hf]; rfl
    | ok b' =>
      rw [ok_bind]
      refine ih ?_ (fun a' ha' => h2 a' (by simp [ha'])) b'
      obtain ⟨a', ha', hb⟩ := h1
      rcases List.mem_cons.1 ha' with rfl | ha'
      · rw [hb] at hf; cases hf
      · exact ⟨a', ha', hb⟩

/-- A label that `condition` has not translated is a `TypeError` once a row is left. -/
theorem conditionRest_label {M : Cpm K} (h : WF U M) {vs : List (Variable K)} {qs : List QState}
    (hlen : qs.length = vs.length)
    (hk : ∀ p ∈ vs.zip qs, p.1.name ∈ M.getNames → p.2.Known p.1)
    (he : EvidenceOK U M.getNames vs ((vs.zip qs).map fun p => p.2.pos p.1))
    (hl : ∃ p ∈ vs.zip qs, p.1.name ∈ M.getNames ∧ ∃ l, p.2 = .label l)
    (hr : ∃ r ∈ M.C, (checkList M.getNames vs ((vs.zip qs).map fun p => p.2.pos p.1)).all
      fun t => rowTest t r) :
    M.conditionRest vs qs = .error .type := by
  unfold Cpm.conditionRest
  rw [isCompatibleQ_pos _ _ _ _ hlen hk, isCompatible_ok h he, ok_bind]
  simp only [ismemberOn]
  rw [condn_self, ok_bind, condn_other _ _ _ hlen, ok_bind, zip_in_scope _ _ _ hlen, maskRows_self]
  set C := M.C.filter fun r =>
    (checkList M.getNames vs ((vs.zip qs).map fun p => p.2.pos p.1)).all fun t => rowTest t r with hC
  have hCne : C ≠ [] := by
    obtain ⟨r, hr, ht⟩ := hr
    exact List.ne_nil_of_mem (List.mem_filter.2 ⟨hr, ht⟩)
  have hfacts : ∀ t ∈ (vs.zip qs).filterMap (fun as : Variable K × QState =>
      ((M.vars.map Variable.name).idxOf? as.1.name).map fun i => (as, i)),
      t.1 ∈ vs.zip qs ∧ ((t.1.1, t.1.2.pos t.1.1), t.2) ∈
        checkList M.getNames vs ((vs.zip qs).map fun p => p.2.pos p.1) := by
    intro t ht
    obtain ⟨p, hp, hpe⟩ := List.mem_filterMap.1 ht
    rw [idxOf?_eq] at hpe
    split at hpe
    · rename_i hin
      simp only [Option.map_some, Option.some.injEq] at hpe
      subst hpe
      refine ⟨hp, mem_checkList.2 ⟨?_, hin, rfl⟩⟩
      rw [zip_pos]
      exact List.mem_map.2 ⟨p, hp, rfl⟩
    · simp at hpe
  have hcol : ∀ t ∈ (vs.zip qs).filterMap (fun as : Variable K × QState =>
      ((M.vars.map Variable.name).idxOf? as.1.name).map fun i => (as, i)),
      column C t.2 = .ok (C.map fun r => r.getD t.2 0) := by
    intro t ht
    obtain ⟨f1, f2, f3, f4, f5, f6⟩ := checkList_facts h he (hfacts t ht).2
    exact column_ok fun r hr => (f6 r (List.mem_filter.1 hr).1).1
  rw [foldlM_error_of]
  · rfl
  · obtain ⟨p, hp, hin, l, hpl⟩ := hl
    refine ⟨(p, (M.vars.map Variable.name).idxOf p.1.name), List.mem_filterMap.2 ⟨p, hp, ?_⟩, ?_⟩
    · have hin : p.1.name ∈ M.vars.map Variable.name := hin
      rw [idxOf?_eq, if_pos hin]; rfl
    · intro b
      have ht : (p, (M.vars.map Variable.name).idxOf p.1.name) ∈
          (vs.zip qs).filterMap (fun as : Variable K × QState =>
          ((M.vars.map Variable.name).idxOf? as.1.name).map fun i => (as, i)) := by
        have hin : p.1.name ∈ M.vars.map Variable.name := hin
        exact List.mem_filterMap.2 ⟨p, hp, by rw [idxOf?_eq, if_pos hin]; rfl⟩
      obtain ⟨f1, f2, -⟩ := checkList_facts h he (hfacts _ ht).2
      simp only at f2
      simp only
      rw [hcol _ ht, ok_bind, hpl, f2]
      unfold condColumnQ
      simp only
      rw [if_neg (by simpa using hCne)]; rfl
  · intro t ht b e' hb
    rw [hcol t ht, ok_bind] at hb
    obtain ⟨f1, f2, f3, f4, f5, f6⟩ := checkList_facts h he (hfacts t ht).2
    simp only at f2 f3
    cases hq : t.1.2 with
    | label l =>
      rw [hq, f2] at hb
      unfold condColumnQ at hb
      simp only at hb
      rw [if_neg (by simpa using hCne)] at hb
      injection hb with hb; exact hb.symm
    | idx n =>
      exfalso
      rw [hq, f2] at hb
      rw [hq] at f3
      unfold condColumnQ condColumn at hb
      simp only at hb
      have f3 : n < (genB t.1.1.values.length).length := f3
      have hx : ∀ x ∈ C.map (fun r => r.getD t.2 0), (do
          let S ← pyGet (genB t.1.1.values.length) x
          let T ← pyGet (genB t.1.1.values.length) n
          return ((genB t.1.1.values.length).idxOf? (S ∩ T)).getD 0 : Except Err ℕ) =
          .ok (((genB t.1.1.values.length).idxOf?
            (stateSet t.1.1 x ∩ stateSet t.1.1 n)).getD 0) := by
        intro x hx
        obtain ⟨r, hr, rfl⟩ := List.mem_map.1 hx
        have f7 : r.getD t.2 0 < (genB t.1.1.values.length).length := (f6 r (List.mem_filter.1 hr).1).2.1
        rw [pyGet_lt f7 ∅, ok_bind, pyGet_lt f3 ∅, ok_bind]
        simp [stateSet, f2, pure_ok]
      rw [mapM_ok hx] at hb
      cases hb

end BNS
