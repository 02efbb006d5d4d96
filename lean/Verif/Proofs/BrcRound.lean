import Verif.Model.BrcRound
import Verif.Proofs.BrcRunInv

/-! Helper lemmas: the decomposition and the loop of `run` with rounded arithmetic.  The structure
of the branches does not depend on the probabilities; the proofs follow those for exact
arithmetic. -/

namespace BNS

set_option linter.unusedSectionVars false

variable {K : Type} [DecidableEq K] {A : Arith} {vs : List (K × ℕ)} {Φ : (K → ℕ) → Bool}

theorem newBranchR_eq (A : Arith) (vs : List (K × ℕ)) (b : Branch K) (rules : Rules K)
    (probs : K → ℕ → ℚ) (xd : K) (st : ℕ) (flag : Bool) :
    b.newBranchR A vs rules probs xd st flag =
      { b.newBranch vs rules probs xd st flag with
        p := approxProbR A vs probs (b.newBranch vs rules probs xd st flag).down
          (b.newBranch vs rules probs xd st flag).up } := by
  cases flag <;> rfl

theorem split_countR (b : Branch K) (rules : Rules K)
    (probs : K → ℕ → ℚ) {xd : K} {st : ℕ} (hk : xd ∈ vs.map Prod.fst) (h1 : b.down xd < st)
    (h2 : st ≤ b.up xd) (x : K → ℕ) :
    ((if InBox vs (b.newBranchR A vs rules probs xd st true) x then 1 else 0) +
      (if InBox vs (b.newBranchR A vs rules probs xd st false) x then 1 else 0) : ℕ) =
      if InBox vs b x then 1 else 0 := split_count b rules probs hk h1 h2 x

theorem split_sizeR (hv : VarisOK vs) (b : Branch K) (rules : Rules K)
    (probs : K → ℕ → ℚ) {xd : K} {st : ℕ} (hk : xd ∈ vs.map Prod.fst) (h1 : b.down xd < st)
    (h2 : st ≤ b.up xd) : b.size vs = (b.newBranchR A vs rules probs xd st true).size vs +
      (b.newBranchR A vs rules probs xd st false).size vs := split_size hv b rules probs hk h1 h2

/-! ## The component to split -/

/-- Whenever a branch has a compatible rule a component is found, and it is cut strictly inside
the branch. -/
theorem decompComp_specR {vs : List (K × ℕ)} {b : Branch K} {rules : Rules K}
    (hk : RulesDict vs rules) (probs : K → ℕ → ℚ) (hc : (b.compatRules rules).count ≠ 0) :
    ∃ xd st, b.decompCompR A (b.compatRules rules) probs = some (xd, st) ∧
      xd ∈ vs.map Prod.fst ∧ b.down xd < st ∧ st ≤ b.up xd := by
  unfold Branch.decompCompR
  simp only
  generalize hR : ((b.compatRules rules).s.map (fun r => (St.s, r)) ++
    (b.compatRules rules).f.map (fun r => (St.f, r))) = R
  have hRne : R ≠ [] := by
    intro he
    rw [he] at hR
    rw [List.append_eq_nil_iff] at hR
    exact hc (count_zero.2 ⟨by simpa using hR.1, by simpa using hR.2⟩)
  -- facts about the compatible rules
  have hfact : ∀ sr ∈ R, sr.2 ≠ [] ∧ ∀ kv ∈ sr.2, kv.1 ∈ vs.map Prod.fst ∧
      b.down kv.1 < cutState sr.1 kv.2 ∧ cutState sr.1 kv.2 ≤ b.up kv.1 := by
    intro sr hsr
    rw [← hR, List.mem_append] at hsr
    rcases hsr with h | h
    · obtain ⟨c, hc, rfl⟩ := List.mem_map.1 h
      obtain ⟨hne, r, hr, ha, rfl⟩ := mem_compat_s hc
      refine ⟨hne, fun kv hkv => ?_⟩
      obtain ⟨h1, h2⟩ := List.mem_filter.1 hkv
      exact ⟨(hk r (by simp [hr])).known kv h1, by simpa [cutState] using h2, ha kv h1⟩
    · obtain ⟨c, hc, rfl⟩ := List.mem_map.1 h
      obtain ⟨hne, r, hr, ha, rfl⟩ := mem_compat_f hc
      refine ⟨hne, fun kv hkv => ?_⟩
      obtain ⟨h1, h2⟩ := List.mem_filter.1 hkv
      refine ⟨(hk r (by simp [hr])).known kv h1, ?_, ?_⟩
      · have := ha kv h1; simp only [cutState]; omega
      · simpa [cutState] using h2
  generalize hcomps : mostCommon (R.map fun sr => sr.2.map Prod.fst).flatten = comps
  generalize hS : (R.insertionSort fun a b' =>
    b.jointProbR A probs b'.1 b'.2 ≤ b.jointProbR A probs a.1 a.2) = S
  have hSmem : ∀ sr, sr ∈ S ↔ sr ∈ R := by
    intro sr; rw [← hS, List.mem_insertionSort]
  cases S with
  | nil =>
    exfalso
    cases R with
    | nil => exact hRne rfl
    | cons a R => exact absurd ((hSmem a).2 (by simp)) (by simp)
  | cons sr S =>
    have hsr : sr ∈ R := (hSmem sr).1 (by simp)
    obtain ⟨hne, hall⟩ := hfact sr hsr
    have hinner : ∃ xd st, (comps.findSome? fun c => b.tryComp sr c) = some (xd, st) := by
      obtain ⟨kv, hkv⟩ := List.exists_mem_of_ne_nil _ hne
      have hin : kv.1 ∈ comps := by
        rw [← hcomps, mem_mostCommon, List.mem_flatten]
        exact ⟨sr.2.map Prod.fst, List.mem_map.2 ⟨sr, hsr, rfl⟩, List.mem_map.2 ⟨kv, hkv, rfl⟩⟩
      have hlk : sr.2.lookup kv.1 ≠ none := by
        intro h
        exact lookup_none.1 h (List.mem_map.2 ⟨kv, hkv, rfl⟩)
      obtain ⟨v, hv⟩ := Option.ne_none_iff_exists'.1 hlk
      have hok := hall _ (lookup_mem hv)
      have : (comps.findSome? fun c => b.tryComp sr c).isSome := by
        rw [List.findSome?_isSome_iff]
        refine ⟨kv.1, hin, ?_⟩
        unfold Branch.tryComp
        rw [hv]
        simp only
        rw [if_pos ⟨hok.2.1, hok.2.2⟩]
        rfl
      obtain ⟨⟨xd, st⟩, h⟩ := Option.isSome_iff_exists.1 this
      exact ⟨xd, st, h⟩
    obtain ⟨xd, st, he⟩ := hinner
    refine ⟨xd, st, ?_, ?_⟩
    · rw [List.findSome?_cons]
      rw [he]
    · obtain ⟨c, -, hc2⟩ := List.exists_of_findSome?_eq_some he
      unfold Branch.tryComp at hc2
      cases hl : sr.2.lookup c with
      | none => rw [hl] at hc2; cases hc2
      | some v =>
        rw [hl] at hc2
        simp only at hc2
        have hok := hall _ (lookup_mem hl)
        rw [if_pos ⟨hok.2.1, hok.2.2⟩] at hc2
        injection hc2 with hc2
        injection hc2 with e1 e2
        subst e1
        rw [← e2]
        exact hok

/-! ## One pass -/

/-- A property of single branches that evaluation, and splitting after evaluation, preserve. -/
structure StableR A (vs : List (K × ℕ)) (rules : Rules K) (probs : K → ℕ → ℚ)
    (P : Branch K → Prop) : Prop where
  eval : ∀ b, P b → P (b.evalState rules)
  split : ∀ b, P b → LabelsNew rules b → ∀ xd ∈ vs.map Prod.fst, ∀ st, b.down xd < st →
    st ≤ b.up xd → ∀ flag, P (b.newBranchR A vs rules probs xd st flag)

/-- A property of single branches that evaluation establishes and splitting preserves. -/
structure FreshR A (vs : List (K × ℕ)) (rules : Rules K) (probs : K → ℕ → ℚ)
    (P Q : Branch K → Prop) : Prop where
  eval : ∀ b, P b → Q (b.evalState rules)
  split : ∀ b, P b → Q b → ∀ xd ∈ vs.map Prod.fst, ∀ st, b.down xd < st → st ≤ b.up xd →
    ∀ flag, Q (b.newBranchR A vs rules probs xd st flag)

theorem StableR.and {rules : Rules K} {probs : K → ℕ → ℚ}
    {P P' : Branch K → Prop} (h : StableR A vs rules probs P) (h' : StableR A vs rules probs P') :
    StableR A vs rules probs (fun b => P b ∧ P' b) :=
  ⟨fun b hb => ⟨h.eval b hb.1, h'.eval b hb.2⟩,
   fun b hb hn xd hx st h1 h2 flag => ⟨h.split b hb.1 hn xd hx st h1 h2 flag,
    h'.split b hb.2 hn xd hx st h1 h2 flag⟩⟩

theorem StableR.imp {rules : Rules K} {probs : K → ℕ → ℚ}
    {P : Branch K → Prop} (C : Prop) (h : StableR A vs rules probs P) :
    StableR A vs rules probs (fun b => C → P b) :=
  ⟨fun b hb hc => h.eval b (hb hc), fun b hb hn xd hx st h1 h2 flag hc =>
    h.split b (hb hc) hn xd hx st h1 h2 flag⟩

/-- A property of branches that does not look at the probability. -/
def IgnoresP (P : Branch K → Prop) : Prop := ∀ b q, P b → P { b with p := q }

theorem Stable.round {rules : Rules K} {probs : K → ℕ → ℚ} {P : Branch K → Prop}
    (h : Stable vs rules probs P) (hi : IgnoresP P) : StableR A vs rules probs P :=
  ⟨h.eval, fun b hb hn xd hx st h1 h2 flag => by
    rw [newBranchR_eq]
    exact hi _ _ (h.split b hb hn xd hx st h1 h2 flag)⟩

theorem Fresh.round {rules : Rules K} {probs : K → ℕ → ℚ} {P Q : Branch K → Prop}
    (h : Fresh vs rules probs P Q) (hi : IgnoresP Q) : FreshR A vs rules probs P Q :=
  ⟨h.eval, fun b hb hq xd hx st h1 h2 flag => by
    rw [newBranchR_eq]
    exact hi _ _ (h.split b hb hq xd hx st h1 h2 flag)⟩

/-- Everything about one pass. -/
theorem decompPass_specR {vs : List (K × ℕ)} (hv : VarisOK vs) {rules : Rules K}
    (hk : RulesDict vs rules) (probs : K → ℕ → ℚ) (maxNb total : ℕ)
    (P : Branch K → Prop) (hP : StableR A vs rules probs P) (hbox : ∀ b, P b → BoxOK vs b)
    (Q : Branch K → Prop) (hQ : FreshR A vs rules probs P Q)
    (rest acc : List (Branch K × Rules K))
    (h1 : ∀ bc ∈ rest, PairOK rules bc) (h2 : ∀ bc ∈ acc, PairOK rules bc)
    (h3 : ∀ bc ∈ rest, P bc.1) (h4 : ∀ bc ∈ acc, P bc.1) :
    ∃ go out, decompPassR A vs rules probs maxNb total rest acc = .ok (go, out) ∧
      (∀ bc ∈ out, PairOK rules bc) ∧ (∀ bc ∈ out, P bc.1) ∧
      (∀ x, hits vs x out = hits vs x acc + hits vs x rest) ∧
      (excess vs out + (out.length - (acc.length + rest.length)) = excess vs acc + excess vs rest) ∧
      acc.length + rest.length ≤ out.length ∧
      (acc.length + rest.length = out.length → go = true → ∀ bc ∈ out, bc ∉ acc →
        bc.2.count = 0) ∧
      (go = false → maxNb < out.length + total) ∧
      (go = true → (∀ bc ∈ acc, Q bc.1) → ∀ bc ∈ out, Q bc.1) := by
  induction rest generalizing acc with
  | nil =>
    refine ⟨true, acc, rfl, h2, h4, ?_, ?_, ?_, ?_, ?_, fun _ h => h⟩
    · intro x; simp [hits]
    · simp [excess]
    · simp
    · intro _ _ bc hb hn; exact absurd hb hn
    · intro h; cases h
  | cons bc rest ih =>
    obtain ⟨b, cr⟩ := bc
    have hpair := h1 (b, cr) (by simp)
    have hPb : P b := h3 (b, cr) (by simp)
    have h1' : ∀ bc ∈ rest, PairOK rules bc := fun bc h => h1 bc (by simp [h])
    have h3' : ∀ bc ∈ rest, P bc.1 := fun bc h => h3 bc (by simp [h])
    unfold decompPassR
    simp only
    by_cases hdone : (b.evalState rules).specified = true ∨ cr.count = 0
    · rw [if_pos hdone]
      have hpe : PairOK rules (b.evalState rules, { s := [], f := [] }) := by
        rcases hdone with h | h
        · exact .inr ⟨rfl, h⟩
        · rcases hpair with h' | ⟨h', h''⟩
          · left
            simp only at h' ⊢
            rw [compatRules_congr (evalState_down b rules) (evalState_up b rules), ← h']
            obtain ⟨e1, e2⟩ := count_zero.1 h
            cases cr; simp_all
          · exact .inr ⟨rfl, specified_evalState h''⟩
      obtain ⟨go, out, e, p1, p2, p3, p4, p5, p6, p7, p8⟩ :=
        ih (acc ++ [(b.evalState rules, { s := [], f := [] })]) h1'
          (by
            intro bc hbc
            rcases List.mem_append.1 hbc with h | h
            · exact h2 bc h
            · rw [List.mem_singleton] at h; subst h; exact hpe) h3'
          (by
            intro bc hbc
            rcases List.mem_append.1 hbc with h | h
            · exact h4 bc h
            · rw [List.mem_singleton] at h; subst h; exact hP.eval b hPb)
      refine ⟨go, out, e, p1, p2, ?_, ?_, ?_, ?_, p7, fun hgo hq => p8 hgo (by
        intro bc hbc
        rcases List.mem_append.1 hbc with h | h
        · exact hq bc h
        · rw [List.mem_singleton] at h; subst h; exact hQ.eval b hPb)⟩
      · intro x
        rw [p3, hits_append, hits_cons, hits_cons]
        simp only [inBox_evalState]
        simp [hits]
        omega
      · have hx : excess vs [((b.evalState rules), ({ s := [], f := [] } : Rules K))] =
            b.size vs - 1 := by simp [excess, size_evalState]
        have hy : excess vs ((b, cr) :: rest) = (b.size vs - 1) + excess vs rest := by
          simp [excess]
        rw [excess_append, hx] at p4
        rw [hy]
        simp only [List.length_append, List.length_cons, List.length_nil] at p4 p5 ⊢
        omega
      · simp only [List.length_append, List.length_cons, List.length_nil] at p5 ⊢
        omega
      · intro hlen hgo bc hbc hn
        by_cases hb : bc = (b.evalState rules, { s := [], f := [] })
        · subst hb; rfl
        · refine p6 ?_ hgo bc hbc ?_
          · simp only [List.length_append, List.length_cons, List.length_nil] at hlen ⊢; omega
          · simp [hn, hb]
    · rw [if_neg hdone]
      push Not at hdone
      have hcr : cr = (b.evalState rules).compatRules rules := by
        rcases hpair with h' | ⟨h', -⟩
        · simp only at h'
          rw [h', compatRules_congr (evalState_down b rules) (evalState_up b rules)]
        · exact absurd (by simp only at h'; rw [h']; rfl) hdone.2
      have hc : ((b.evalState rules).compatRules rules).count ≠ 0 := hcr ▸ hdone.2
      obtain ⟨xd, st, e, hxd, hlt, hle⟩ := decompComp_specR (vs := vs) hk probs hc
      rw [hcr, e]
      simp only
      generalize hB : b.evalState rules = b' at *
      have hPb' : P b' := hB ▸ hP.eval b hPb
      have hNb' : LabelsNew rules b' := hB ▸ labelsNew_eval rules b
      have hbb := hbox b' hPb'
      generalize hb1 : b'.newBranchR A vs rules probs xd st true = b1
      generalize hb2 : b'.newBranchR A vs rules probs xd st false = b2
      have hP1 : P b1 := hb1 ▸ hP.split b' hPb' hNb' xd hxd st hlt hle true
      have hP2 : P b2 := hb2 ▸ hP.split b' hPb' hNb' xd hxd st hlt hle false
      have hhit : ∀ x, (if InBox vs b1 x then 1 else 0) + (if InBox vs b2 x then 1 else 0) =
          if InBox vs b x then 1 else 0 := by
        intro x
        rw [← hb1, ← hb2, split_countR b' rules probs hxd hlt hle x]
        have : InBox vs b' x ↔ InBox vs b x := by rw [← hB]; exact inBox_evalState vs b rules x
        exact if_congr this rfl rfl
      have hs1 := size_pos (hbox b1 hP1)
      have hs2 := size_pos (hbox b2 hP2)
      have hsz : b.size vs = b1.size vs + b2.size vs := by
        rw [← hb1, ← hb2, ← split_sizeR hv b' rules probs hxd hlt hle, ← hB, size_evalState]
      have hacc : ∀ bc ∈ acc ++ [(b1, b1.compatRules rules), (b2, b2.compatRules rules)],
          PairOK rules bc ∧ P bc.1 := by
        intro bc hbc
        rcases List.mem_append.1 hbc with h | h
        · exact ⟨h2 bc h, h4 bc h⟩
        · simp only [List.mem_cons, List.not_mem_nil, or_false] at h
          rcases h with rfl | rfl
          · exact ⟨.inl rfl, hP1⟩
          · exact ⟨.inl rfl, hP2⟩
      have hex : excess vs ((b, cr) :: rest) = (b.size vs - 1) + excess vs rest := by
        simp [excess]
      have hex2 : excess vs [(b1, b1.compatRules rules), (b2, b2.compatRules rules)] =
          (b1.size vs - 1) + (b2.size vs - 1) := by simp [excess]
      have hh2 : ∀ x, hits vs x [(b1, b1.compatRules rules), (b2, b2.compatRules rules)] =
          if InBox vs b x then 1 else 0 := by
        intro x
        rw [← hhit x, hits_cons, hits_cons]
        simp [hits]
        omega
      split
      · rename_i hmax
        refine ⟨false, _, rfl, ?_, ?_, ?_, ?_, ?_, ?_, ?_, (by intro h; cases h)⟩
        · intro bc hbc
          rcases List.mem_append.1 hbc with h | h
          · exact (hacc bc h).1
          · exact h1' bc h
        · intro bc hbc
          rcases List.mem_append.1 hbc with h | h
          · exact (hacc bc h).2
          · exact h3' bc h
        · intro x
          rw [hits_append, hits_append, hh2, hits_cons]
          simp only
          omega
        · rw [excess_append, excess_append, hex2]
          rw [hcr] at hex
          rw [hex]
          simp only [List.length_append, List.length_cons, List.length_nil]
          omega
        · simp only [List.length_append, List.length_cons, List.length_nil]; omega
        · intro hlen
          simp only [List.length_append, List.length_cons, List.length_nil] at hlen
          omega
        · intro _
          simp only [List.length_append, List.length_cons, List.length_nil] at hmax ⊢
          omega
      · obtain ⟨go, out, e', p1, p2, p3, p4, p5, p6, p7, p8⟩ :=
          ih (acc ++ [(b1, b1.compatRules rules), (b2, b2.compatRules rules)]) h1'
            (fun bc h => (hacc bc h).1) h3' (fun bc h => (hacc bc h).2)
        have hQb' : Q b' := hB ▸ hQ.eval b hPb
        refine ⟨go, out, e', p1, p2, ?_, ?_, ?_, ?_, p7, fun hgo hq => p8 hgo (by
          intro bc hbc
          rcases List.mem_append.1 hbc with h | h
          · exact hq bc h
          · simp only [List.mem_cons, List.not_mem_nil, or_false] at h
            rcases h with rfl | rfl
            · exact hb1 ▸ hQ.split b' hPb' hQb' xd hxd st hlt hle true
            · exact hb2 ▸ hQ.split b' hPb' hQb' xd hxd st hlt hle false)⟩
        · intro x
          rw [p3, hits_append, hh2, hits_cons]
          simp only
          omega
        · rw [excess_append, hex2] at p4
          rw [hcr] at hex
          rw [hex]
          simp only [List.length_append, List.length_cons, List.length_nil] at p4 p5 ⊢
          omega
        · simp only [List.length_append, List.length_cons, List.length_nil] at p5 ⊢
          omega
        · intro hlen
          simp only [List.length_append, List.length_cons, List.length_nil] at hlen p5
          omega

/-! ## The loop -/

/-- Everything about the loop: it terminates; the invariants hold of the result; when the branch
limit was not hit, each branch is specified or has no compatible rule left. -/
theorem decompLoop_specR {vs : List (K × ℕ)} (hv : VarisOK vs) {rules : Rules K}
    (hk : RulesDict vs rules) (probs : K → ℕ → ℚ) (maxNb : ℕ)
    (P : Branch K → Prop) (hP : StableR A vs rules probs P) (hbox : ∀ b, P b → BoxOK vs b)
    (Q : Branch K → Prop) (hQ : FreshR A vs rules probs P Q)
    (n : ℕ) (bcs : List (Branch K × Rules K)) (hn : excess vs bcs < n)
    (h1 : ∀ bc ∈ bcs, PairOK rules bc) (h3 : ∀ bc ∈ bcs, P bc.1) :
    ∃ trunc out, decompLoopR A vs rules probs maxNb n bcs = .ok (trunc, out) ∧
      (∀ bc ∈ out, P bc.1) ∧ (∀ x, hits vs x out = hits vs x bcs) ∧
      bcs.length ≤ out.length ∧
      (trunc = false → ∀ bc ∈ out, bc.1.specified = true ∨
        (bc.1.compatRules rules).s = [] ∧ (bc.1.compatRules rules).f = []) ∧
      (trunc = true → maxNb < 2 * out.length) ∧
      (trunc = false → ∀ bc ∈ out, Q bc.1) := by
  induction n generalizing bcs with
  | zero => omega
  | succ n ih =>
    unfold decompLoopR
    simp only
    generalize hS : (bcs.insertionSort fun a b => b.1.p ≤ a.1.p) = S
    have hperm : S.Perm bcs := by rw [← hS]; exact List.perm_insertionSort _ _
    obtain ⟨go, out, e, p1, p2, p3, p4, p5, p6, p7, p8⟩ :=
      decompPass_specR hv hk probs maxNb S.length P hP hbox Q hQ S []
        (fun bc h => h1 bc (hperm.subset h)) (by simp) (fun bc h => h3 bc (hperm.subset h))
        (by simp)
    rw [e, ok_bind]
    have hlen : S.length = bcs.length := hperm.length_eq
    have hhits : ∀ x, hits vs x out = hits vs x bcs := by
      intro x; rw [p3 x]; simp only [hits, List.countP_nil, Nat.zero_add]; exact hits_perm hperm
    simp only [List.length_nil, Nat.zero_add] at p4 p5 p6
    have hex0 : excess vs ([] : List (Branch K × Rules K)) = 0 := by simp [excess]
    rw [hex0, Nat.zero_add, excess_perm hperm] at p4
    simp only
    split
    · rename_i hgo
      refine ⟨true, out, rfl, p2, hhits, by omega, (by intro h; cases h), ?_,
        (by intro h; cases h)⟩
      intro _
      have := p7 hgo
      omega
    · rename_i hgo
      split
      · rename_i hz
        refine ⟨false, out, rfl, p2, hhits, by omega, ?_, (by intro h; cases h),
          fun _ => p8 (by simpa using hgo) (by simp)⟩
        intro _ bc hbc
        have hc : bc.2.count = 0 := by
          have := List.sum_eq_zero_iff.1 hz bc.2.count (List.mem_map.2 ⟨bc, hbc, rfl⟩)
          exact this
        rcases p1 bc hbc with h | ⟨-, h⟩
        · right
          rw [h] at hc
          exact count_zero.1 hc
        · exact .inl h
      · rename_i hz
        have hgt : S.length < out.length := by
          by_contra hcon
          have : S.length = out.length := by omega
          apply hz
          refine List.sum_eq_zero_iff.2 ?_
          intro q hq
          obtain ⟨bc, hbc, rfl⟩ := List.mem_map.1 hq
          exact p6 this (by simpa using hgo) bc hbc (by simp)
        obtain ⟨trunc, out', e', q1, q2, q3, q4, q5, q6⟩ := ih out (by omega) p1 p2
        exact ⟨trunc, out', e', q1, fun x => by rw [q2, hhits], by omega, q4, q5, q6⟩


theorem decomp_eqR {vs : List (K × ℕ)} {rules : Rules K} (hk : RulesDict vs rules)
    (probs : K → ℕ → ℚ) (maxNb : ℕ) (brs : List (Branch K)) :
    decompR A vs rules probs maxNb brs = decompLoopR A vs rules probs maxNb
      (((startBranches vs rules brs).map fun b => b.size vs).sum + 1)
      ((startBranches vs rules brs).map fun b => (b, b.compatRules rules)) := by
  unfold decompR
  rw [checkKeys_ok hk, ok_bind]
  rfl

theorem decomp_specR {vs : List (K × ℕ)} (hv : VarisOK vs) {rules : Rules K}
    (hk : RulesDict vs rules) (probs : K → ℕ → ℚ) (maxNb : ℕ) (brs : List (Branch K))
    (P : Branch K → Prop) (hP : StableR A vs rules probs P) (hbox : ∀ b, P b → BoxOK vs b)
    (Q : Branch K → Prop) (hQ : FreshR A vs rules probs P Q)
    (h : ∀ b ∈ startBranches vs rules brs, P b) :
    ∃ trunc out, decompR A vs rules probs maxNb brs = .ok (trunc, out) ∧
      (∀ bc ∈ out, P bc.1) ∧
      (∀ x, hits vs x out =
        (startBranches vs rules brs).countP fun b => decide (InBox vs b x)) ∧
      (trunc = false → ∀ bc ∈ out, bc.1.specified = true ∨
        (bc.1.compatRules rules).s = [] ∧ (bc.1.compatRules rules).f = []) ∧
      (trunc = true → maxNb < 2 * out.length) ∧
      (trunc = false → ∀ bc ∈ out, Q bc.1) := by
  rw [decomp_eqR hk]
  obtain ⟨trunc, out, e, p1, p2, -, p4, p5, p6⟩ := decompLoop_specR hv hk probs maxNb P hP hbox Q hQ
    (((startBranches vs rules brs).map fun b => b.size vs).sum + 1)
    ((startBranches vs rules brs).map fun b => (b, b.compatRules rules))
    (Nat.lt_succ_of_le (excess_le_size _ _ _))
    (by
      intro bc hbc
      obtain ⟨b, -, rfl⟩ := List.mem_map.1 hbc
      exact .inl rfl)
    (by
      intro bc hbc
      obtain ⟨b, hb, rfl⟩ := List.mem_map.1 hbc
      exact h b hb)
  refine ⟨trunc, out, e, p1, ?_, p4, p5, p6⟩
  intro x
  rw [p2 x]
  unfold hits
  rw [List.countP_map]
  rfl

/-! ## The next vector -/

theorem compStLoop_specR (probs : K → ℕ → ℚ) (brs : List (Branch K))
    (n : Option ((K → ℕ) × ℚ)) (acc out : List ((K → ℕ) × ℚ))
    (h : compStLoopR A vs probs brs n acc = .ok out) (hacc : n ≠ none → acc ≠ []) :
    (∀ xp ∈ out, xp ∈ acc ∨ (∃ m, n = some m ∧ xp = m) ∨
      ∃ b ∈ brs, xp.1 = b.up ∧ b.upState = .u) ∧
    (out = [] → acc = [] ∧ NoUnknown brs) ∧ (acc = [] → NoUnknown brs → out = []) := by
  induction brs generalizing n acc with
  | nil =>
    cases h
    exact ⟨fun xp h => .inl h, fun h => ⟨h, fun b hb => by cases hb⟩, fun h _ => h⟩
  | cons b brs ih =>
    unfold compStLoopR at h
    by_cases hu : b.upState = .u
    · simp only [hu, if_true] at h
      by_cases hd : b.downState = .u
      · simp only [hd, if_true] at h
        obtain ⟨h1, h2, -⟩ := ih _ _ h (by intro _; simp)
        refine ⟨fun xp hxp => ?_, fun ho => ?_, fun _ hno => ?_⟩
        · rcases h1 xp hxp with h | ⟨m, hm, rfl⟩ | ⟨b', hb', h⟩
          · simp only [List.append_assoc, List.mem_append, List.mem_singleton] at h
            rcases h with h | h | h
            · exact .inl h
            · exact .inr (.inr ⟨b, by simp, by rw [h], hu⟩)
            · exact .inr (.inr ⟨b, by simp, by rw [h], hu⟩)
          · injection hm with hm
            exact .inr (.inr ⟨b, by simp, by rw [← hm], hu⟩)
          · exact .inr (.inr ⟨b', by simp [hb'], h⟩)
        · have := (h2 ho).1
          simp at this
        · exact absurd hu (hno b (by simp)).2
      · simp only [hd, if_false] at h
        obtain ⟨h1, h2, -⟩ := ih _ _ h (by intro _; simp)
        refine ⟨fun xp hxp => ?_, fun ho => ?_, fun _ hno => ?_⟩
        · rcases h1 xp hxp with h | ⟨m, hm, rfl⟩ | ⟨b', hb', h⟩
          · simp only [List.mem_append, List.mem_singleton] at h
            rcases h with h | h
            · exact .inl h
            · exact .inr (.inr ⟨b, by simp, by rw [h], hu⟩)
          · injection hm with hm
            exact .inr (.inr ⟨b, by simp, by rw [← hm], hu⟩)
          · exact .inr (.inr ⟨b', by simp [hb'], h⟩)
        · have := (h2 ho).1
          simp at this
        · exact absurd hu (hno b (by simp)).2
    · simp only [hu, if_false] at h
      by_cases hd : b.downState = .u
      · simp only [hd, if_true] at h
        cases n with
        | none => cases h
        | some m =>
          obtain ⟨h1, h2, -⟩ := ih _ _ h (by intro _; simp)
          refine ⟨fun xp hxp => ?_, fun ho => ?_, fun _ hno => ?_⟩
          · rcases h1 xp hxp with h | h | ⟨b', hb', h⟩
            · simp only [List.mem_append, List.mem_singleton] at h
              rcases h with h | h
              · exact .inl h
              · exact .inr (.inl ⟨m, rfl, h⟩)
            · exact .inr (.inl h)
            · exact .inr (.inr ⟨b', by simp [hb'], h⟩)
          · have := (h2 ho).1
            simp at this
          · exact absurd hd (hno b (by simp)).1
      · simp only [hd, if_false] at h
        obtain ⟨h1, h2, h3⟩ := ih _ _ h hacc
        refine ⟨fun xp hxp => ?_, fun ho => ?_, fun ha hno => ?_⟩
        · rcases h1 xp hxp with h | h | ⟨b', hb', h⟩
          · exact .inl h
          · exact .inr (.inl h)
          · exact .inr (.inr ⟨b', by simp [hb'], h⟩)
        · refine ⟨(h2 ho).1, fun b' hb' => ?_⟩
          rcases List.mem_cons.1 hb' with rfl | hb'
          · exact ⟨hd, hu⟩
          · exact (h2 ho).2 b' hb'
        · exact h3 ha fun b' hb' => hno b' (by simp [hb'])

theorem getCompSt_false_eqR {probs : K → ℕ → ℚ} {brs : List (Branch K)} {o : Option (K → ℕ)}
    (h : getCompStR A vs probs false brs = .ok o) :
    ∃ new, compStLoopR A vs probs brs none [] = .ok new ∧
      o = ((new.insertionSort fun a b => b.2 ≤ a.2).head?).map Prod.fst := by
  unfold getCompStR at h
  simp only [Bool.false_eq_true, if_false] at h
  cases hc : compStLoopR A vs probs brs none [] with
  | error e => rw [hc] at h; cases h
  | ok new => rw [hc] at h; cases h; exact ⟨new, rfl, rfl⟩

theorem getCompSt_false_someR {probs : K → ℕ → ℚ} {brs : List (Branch K)} {x : K → ℕ}
    (h : getCompStR A vs probs false brs = .ok (some x)) :
    ∃ b ∈ brs, x = b.up ∧ b.upState = .u := by
  obtain ⟨new, hc, ho⟩ := getCompSt_false_eqR h
  obtain ⟨h1, -⟩ := compStLoop_specR probs brs none [] new hc (by simp)
  obtain ⟨xp, hxp, rfl⟩ := Option.map_eq_some_iff.1 ho.symm
  have hm : xp ∈ new := (List.mem_insertionSort _).1 (List.mem_of_mem_head? hxp)
  rcases h1 xp hm with h | ⟨m, hm, -⟩ | h
  · cases h
  · cases hm
  · exact h

theorem getCompSt_false_noneR {probs : K → ℕ → ℚ} {brs : List (Branch K)} :
    getCompStR A vs probs false brs = .ok none ↔ NoUnknown brs := by
  constructor
  · intro h
    obtain ⟨new, hc, ho⟩ := getCompSt_false_eqR h
    obtain ⟨-, h2, -⟩ := compStLoop_specR probs brs none [] new hc (by simp)
    refine (h2 ?_).2
    have h3 := Option.map_eq_none_iff.1 ho.symm
    rw [List.head?_eq_none_iff] at h3
    have := List.length_insertionSort (fun a b : (K → ℕ) × ℚ => b.2 ≤ a.2) new
    rw [h3] at this
    exact List.eq_nil_of_length_eq_zero this.symm
  · intro h
    have hc : compStLoopR A vs probs brs none [] = .ok [] := by
      induction brs with
      | nil => rfl
      | cons b brs ih =>
        obtain ⟨hd, hu⟩ := h b (by simp)
        unfold compStLoopR
        simp only [hd, hu, if_false]
        exact ih fun b' hb' => h b' (by simp [hb'])
    unfold getCompStR
    simp only [Bool.false_eq_true, if_false]
    rw [hc]
    rfl

/-- For `surv_first=False` there is an answer when no branch has an unknown lower label under a known
upper one. -/
theorem getCompSt_false_totalR (probs : K → ℕ → ℚ) (brs : List (Branch K))
    (h : ∀ b ∈ brs, b.downState = .u → b.upState = .u) :
    ∃ o, getCompStR A vs probs false brs = .ok o := by
  have hl : ∀ n acc, ∃ out, compStLoopR A vs probs brs n acc = .ok out := by
    induction brs with
    | nil => exact fun n acc => ⟨acc, rfl⟩
    | cons b brs ih =>
      have ih := ih fun b hb => h b (by simp [hb])
      intro n acc
      unfold compStLoopR
      by_cases hu : b.upState = .u
      · simp only [hu, if_true]
        by_cases hd : b.downState = .u
        · simp only [hd, if_true]
          exact ih _ _
        · simp only [hd, if_false]
          exact ih _ _
      · have hd : ¬ b.downState = .u := fun hd => hu (h b (by simp) hd)
        simp only [hu, hd, if_false]
        exact ih _ _
  obtain ⟨out, ho⟩ := hl none []
  unfold getCompStR
  simp only [Bool.false_eq_true, if_false]
  rw [ho]
  exact ⟨_, rfl⟩

/-- `get_comp_st` with `surv_first`: full description. -/
theorem getCompSt_trueR (probs : K → ℕ → ℚ) (brs : List (Branch K)) :
    (∃ b ∈ brs, b.upState = .u ∧ (∀ b' ∈ brs, b'.upState = .u → b'.p ≤ b.p) ∧
        getCompStR A vs probs true brs = .ok (some b.up)) ∨
    ((∀ b ∈ brs, b.upState ≠ .u) ∧ ∃ b ∈ brs, b.downState = .u ∧
        (∀ b' ∈ brs, b'.downState = .u → b'.p ≤ b.p) ∧
        getCompStR A vs probs true brs = .ok (some b.down)) ∨
    (NoUnknown brs ∧ getCompStR A vs probs true brs = .ok none) := by
  unfold getCompStR
  simp only [if_true]
  cases h1 : (brs.insertionSort fun a b => b.p ≤ a.p).find? fun b => b.upState = .u with
  | some b =>
    left
    obtain ⟨hm, hq, hmax⟩ := find_sorted (p := fun b : Branch K => b.p) h1
    exact ⟨b, hm, by simpa using hq, fun b' hb' h => hmax b' hb' (by simpa using h), rfl⟩
  | none =>
    right
    have hno := (find_sorted_none (p := fun b : Branch K => b.p)).1 h1
    have hno : ∀ b ∈ brs, b.upState ≠ .u := fun b hb => by simpa using hno b hb
    simp only
    cases h2 : (brs.insertionSort fun a b => b.p ≤ a.p).find? fun b => b.downState = .u with
    | some b =>
      left
      obtain ⟨hm, hq, hmax⟩ := find_sorted (p := fun b : Branch K => b.p) h2
      exact ⟨hno, b, hm, by simpa using hq, fun b' hb' h => hmax b' hb' (by simpa using h), rfl⟩
    | none =>
      right
      have hno' := (find_sorted_none (p := fun b : Branch K => b.p)).1 h2
      exact ⟨fun b hb => ⟨by simpa using hno' b hb, hno b hb⟩, rfl⟩

theorem getCompSt_someR {probs : K → ℕ → ℚ} {sf : Bool} {brs : List (Branch K)} {x : K → ℕ}
    (h : getCompStR A vs probs sf brs = .ok (some x)) : UnknownEnd brs x := by
  cases sf with
  | false =>
    obtain ⟨b, hb, hx⟩ := getCompSt_false_someR h
    exact ⟨b, hb, .inl hx⟩
  | true =>
    rcases getCompSt_trueR (vs := vs) probs brs with ⟨b, hb, hu, -, he⟩ | ⟨-, b, hb, hu, -, he⟩ |
      ⟨-, he⟩
    · rw [he] at h; cases h; exact ⟨b, hb, .inl ⟨rfl, hu⟩⟩
    · rw [he] at h; cases h; exact ⟨b, hb, .inr ⟨rfl, hu⟩⟩
    · rw [he] at h; cases h

theorem getCompSt_noneR {probs : K → ℕ → ℚ} {sf : Bool} {brs : List (Branch K)} :
    getCompStR A vs probs sf brs = .ok none ↔ NoUnknown brs := by
  cases sf with
  | false => exact getCompSt_false_noneR
  | true =>
    rcases getCompSt_trueR (vs := vs) probs brs with ⟨b, hb, hu, -, he⟩ | ⟨-, b, hb, hu, -, he⟩ |
      ⟨h, he⟩
    · rw [he]
      refine ⟨fun h => (by cases h), fun h => absurd hu (h b hb).2⟩
    · rw [he]
      refine ⟨fun h => (by cases h), fun h => absurd hu (h b hb).1⟩
    · exact ⟨fun _ => h, fun _ => he⟩

end BNS
