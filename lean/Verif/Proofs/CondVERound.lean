import Verif.Model.CondVERound
import Verif.Spec.CondVERound
import Verif.Proofs.ElimCondRound
import Verif.Proofs.SysNetRound
import Verif.Props.Order

/-!
# Helper lemmas: `prod_Msys_and_Mcomps` and `cal_Msys_by_cond_VE` keep relations between probabilities
-/

namespace BNS

set_option linter.unusedSectionVars false

open List

theorem rows1_le_prod {K : Type} [LinearOrder K] {M : Cpm K} {l : List (Cpm K)} (h : M ∈ l) :
    rows1 M ≤ (l.map rows1).prod := by
  induction l with
  | nil => cases h
  | cons a l ih =>
    rw [List.map_cons, List.prod_cons]
    rcases List.mem_cons.1 h with rfl | h
    · exact Nat.le_mul_of_pos_right _ (prod_pos1 l)
    · exact (ih h).trans (Nat.le_mul_of_pos_left _ (rows1_pos a))

theorem sublist_rows {K : Type} [LinearOrder K] {l1 l : List (Cpm K)} (h : l1.Sublist l) :
    (l1.map rows1).prod ≤ (l.map rows1).prod := by
  induction h with
  | slnil => exact le_rfl
  | cons a _ ih =>
    rw [List.map_cons, List.prod_cons]
    exact ih.trans (Nat.le_mul_of_pos_left _ (rows1_pos a))
  | cons_cons a _ ih =>
    rw [List.map_cons, List.prod_cons, List.map_cons, List.prod_cons]
    exact Nat.mul_le_mul_left _ ih

theorem condition_vars' {K : Type} [DecidableEq K] {M P : Cpm K} {vars : List (Variable K)}
    {states : List ℕ} (h : M.condition vars states = .ok P) : P.vars = M.vars := by
  unfold Cpm.condition at h
  obtain ⟨mask, -, h⟩ := bind_ok.1 h
  generalize (if M.p = [] then [] else maskRows mask M.p) = pm at h
  obtain ⟨cv, -, h⟩ := bind_ok.1 h
  obtain ⟨cs, -, h⟩ := bind_ok.1 h
  obtain ⟨Cc, -, h⟩ := bind_ok.1 h
  obtain ⟨_, -, h⟩ := bind_ok.1 h
  obtain ⟨_, -, h⟩ := bind_ok.1 h
  split at h
  · cases h; rfl
  · simp only at h
    split at h
    · obtain ⟨ps, -, h⟩ := bind_ok.1 h
      obtain ⟨_, -, h⟩ := bind_ok.1 h
      cases h; rfl
    · split at h
      · cases h; rfl
      · obtain ⟨ps, -, h⟩ := bind_ok.1 h
        cases h; rfl

theorem forall₂_mem {α β : Type} {S : α → β → Prop} {l : List α} {l' : List β} (h : Forall₂ S l l')
    {x : α} (hx : x ∈ l) : ∃ y, S x y := by
  induction h with
  | nil => cases hx
  | cons h1 _ ih =>
    rcases List.mem_cons.1 hx with rfl | hx
    · exact ⟨_, h1⟩
    · exact ih hx

theorem Outcome.with_ok {α β : Type} {R : α → β → Prop} {x : Except Err α} {y : Except Err β}
    (h : Outcome R x y) : Outcome (fun a b => R a b ∧ y = .ok b) x y := by
  cases x with
  | error e => cases y with
    | error e' => exact h
    | ok b => exact h.elim
  | ok a => cases y with
    | error e' => exact h.elim
    | ok b => exact ⟨h, rfl⟩

section Prod
variable {K : Type} [DecidableEq K] {A : Arith} {R : ℕ → ℚ → ℚ → Prop}

theorem compProb_sum (m : Cpm K) (c1 : List ℕ) (ks : List ℕ) :
    compProb m c1 ks = (do
      let xs ← ks.mapM fun k => do
        let i ← pyIndex c1 k
        pyGet m.p i
      return xs.sum) := by
  induction ks with
  | nil => rfl
  | cons k ks ih =>
    rw [compProb, ih, List.mapM_cons]
    simp only [bind_assoc, pure_bind, List.sum_cons]

theorem compProb_rel (hR : Counted A R) {t : ℕ} {m' m : Cpm K} (h : SameTable (R t) m' m) (c1 : List ℕ)
    {ks : List ℕ} (hk : ks.Nodup) : Outcome (R (t + c1.length)) (compProbR A m' c1 ks)
      (compProb m c1 ks) := by
  rw [compProb_sum]
  unfold compProbR
  have hm : Outcome (Forall₂ (R t)) (ks.mapM fun k => do
        let i ← pyIndex c1 k
        pyGet m'.p i) (ks.mapM fun k => do
        let i ← pyIndex c1 k
        pyGet m.p i) :=
    Outcome.mapM ks fun k _ => Outcome.bind_self fun i _ => pyGet_rel h.p i
  refine hm.bind' fun xs' xs _ hxs hx => ?_
  refine hR.sum _ _ _ _ hx ?_
  have hf := mapM_ok_forall₂ hxs
  rw [← hf.length_eq]
  refine (List.Nodup.subperm hk fun k hkm => ?_).length_le
  obtain ⟨x, hx⟩ : ∃ x, (do
        let i ← pyIndex c1 k
        pyGet m.p i) = Except.ok (ε := Err) x := by
    exact forall₂_mem hf hkm
  obtain ⟨i, hi, -⟩ := bind_ok.1 hx
  unfold pyIndex at hi
  by_contra hc
  rw [List.idxOf?_eq_none_iff.2 hc] at hi
  cases hi

theorem foldMul_rel (hR : Counted A R) {b : ℕ} {l' l : List ℚ} (h : Forall₂ (R b) l' l) :
    ∀ {s : ℕ} {x' x : ℚ}, R s x' x →
      R (s + l.length * (b + 1)) (l'.foldl A.mul x') (l.foldl (· * ·) x) := by
  induction h with
  | nil => intro s x' x h; simpa using h
  | cons h1 _ ih =>
    intro s x' x h
    have := ih (hR.mul _ _ _ _ _ _ h h1)
    refine hR.mono _ _ _ _ (le_of_eq ?_) this
    rw [List.length_cons]; ring

theorem condScope_rel {S : ℚ → ℚ → Prop} {l' l : List (Cpm K)} (h : Forall₂ (SameTable S) l' l) :
    condScope l' = condScope l := by
  have hvars : l'.map (fun m => (m.vars, m.C, m.noChild)) = l.map fun m => (m.vars, m.C, m.noChild) := by
    induction h with
    | nil => rfl
    | cons h1 _ ih => rw [List.map_cons, List.map_cons, ih, h1.vars, h1.C, h1.noChild]
  have h1 : ∀ cv : List K, (∀ m ∈ l', (m.vars.drop 1).map Variable.name = cv) ↔
      ∀ m ∈ l, (m.vars.drop 1).map Variable.name = cv := by
    intro cv
    have e : ∀ L : List (Cpm K), (∀ m ∈ L, (m.vars.drop 1).map Variable.name = cv) ↔
        ∀ z ∈ L.map (fun m => (m.vars, m.C, m.noChild)), (z.1.drop 1).map Variable.name = cv := by
      intro L; simp
    rw [e, e, hvars]
  have h2 : ∀ cs : List ℕ, (∀ m ∈ l', ∀ c ∈ m.C, c.drop 1 = cs) ↔ ∀ m ∈ l, ∀ c ∈ m.C, c.drop 1 = cs := by
    intro cs
    have e : ∀ L : List (Cpm K), (∀ m ∈ L, ∀ c ∈ m.C, c.drop 1 = cs) ↔
        ∀ z ∈ L.map (fun m => (m.vars, m.C, m.noChild)), ∀ c ∈ z.2.1, c.drop 1 = cs := by
      intro L; simp
    rw [e, e, hvars]
  cases h with
  | nil => rfl
  | @cons a b l' l ha hl =>
    unfold condScope
    simp only [ha.vars, ha.noChild, ha.C, h1, h2]

theorem prodMsys_rel (hR : Counted A R) {s t n w : ℕ} {S' S : Cpm K} (hS : SameTable (R s) S' S)
    {l' l : List (Cpm K)} (h : Forall₂ (SameTable (R t)) l' l) (hn : ∀ m ∈ l, m.C.length ≤ n)
    (hw : S.vars.length ≤ w) :
    Outcome (SameTable (R (s + w * (t + n + 1)))) (prodMsysMcompsR A S' l') (prodMsysMcomps S l) := by
  have hone : (∀ m ∈ l', m.noChild = 1) ↔ ∀ m ∈ l, m.noChild = 1 := by
    have e : l'.map Cpm.noChild = l.map Cpm.noChild := by
      clear hn
      induction h with
      | nil => rfl
      | cons h1 _ ih => rw [List.map_cons, List.map_cons, ih, h1.noChild]
    have e2 : ∀ L : List (Cpm K), (∀ m ∈ L, m.noChild = 1) ↔ ∀ z ∈ L.map Cpm.noChild, z = 1 := by
      intro L; simp
    rw [e2, e2, e]
  have hnames : (l'.mapM fun m => do
        let v ← pyGet m.vars 0
        return v.name) = (l.mapM fun m => do
        let v ← pyGet m.vars 0
        return v.name : Except Err (List K)) := by
    clear hn hone
    induction h with
    | nil => rfl
    | cons h1 _ ih => rw [List.mapM_cons, List.mapM_cons, ih, h1.vars]
  unfold prodMsysMcompsR prodMsysMcomps
  rw [hnames, condScope_rel h, hS.vars, hS.noChild, hS.C]
  refine pyAssert_rel hone ?_
  refine Outcome.bind_self fun compNames _ => ?_
  generalize hsp : splitParents compNames (S.vars.drop S.noChild) = mp
  obtain ⟨mult, pars⟩ := mp
  have hmult : mult.length ≤ w := by
    have : mult = (splitParents compNames (S.vars.drop S.noChild)).1 := by rw [hsp]
    rw [this]
    unfold splitParents
    refine (List.length_filterMap_le _ _).trans ?_
    rw [List.length_drop]
    omega
  simp only
  refine Outcome.bind_self fun cond _ => ?_
  split
  · exact rfl
  have hgn : S'.getNames = S.getNames := by unfold Cpm.getNames; rw [hS.vars]
  rw [hgn]
  refine Outcome.bind_self fun cols _ => Outcome.bind_self fun C _ => ?_
  have hp : Outcome (Forall₂ (R (s + w * (t + n + 1)))) _ _ :=
    Outcome.mapM₂ (zip_rel hS.p (C.map fun r => r ++ (cond.filter fun vs =>
        vs.1.name ∉ pars.map Variable.name).map Prod.snd))
      (f := fun rp => do
        let fs ← mult.zipIdx.mapM fun vij => do
          let m ← pyGet l' vij.1.2
          let c1 ← m.C.mapM fun c => pyGet c 0
          let st ← pyGet rp.1 (S.noChild + vij.2)
          let v ← pyGet m.vars 0
          match v.B with
          | none => .error .type
          | some B => do
            let T ← pyGet B st
            compProbR A m c1 (T.sort (· ≤ ·))
        return fs.foldl A.mul rp.2)
      (g := fun rp => do
        let fs ← mult.zipIdx.mapM fun vij => do
          let m ← pyGet l vij.1.2
          let c1 ← m.C.mapM fun c => pyGet c 0
          let st ← pyGet rp.1 (S.noChild + vij.2)
          let v ← pyGet m.vars 0
          match v.B with
          | none => .error .type
          | some B => do
            let T ← pyGet B st
            compProb m c1 (T.sort (· ≤ ·))
        return fs.foldl (· * ·) rp.2) (by
      rintro ⟨r', x'⟩ ⟨r, x⟩ ⟨hr, hx⟩
      simp only at hr hx
      subst hr
      have hin : Outcome (Forall₂ (R (t + n))) (mult.zipIdx.mapM fun vij => do
          let m ← pyGet l' vij.1.2
          let c1 ← m.C.mapM fun c => pyGet c 0
          let st ← pyGet r' (S.noChild + vij.2)
          let v ← pyGet m.vars 0
          match v.B with
          | none => .error .type
          | some B => do
            let T ← pyGet B st
            compProbR A m c1 (T.sort (· ≤ ·)))
          (mult.zipIdx.mapM fun vij => do
          let m ← pyGet l vij.1.2
          let c1 ← m.C.mapM fun c => pyGet c 0
          let st ← pyGet r' (S.noChild + vij.2)
          let v ← pyGet m.vars 0
          match v.B with
          | none => .error .type
          | some B => do
            let T ← pyGet B st
            compProb m c1 (T.sort (· ≤ ·))) := by
        refine Outcome.mapM _ fun vij _ => ?_
        refine (pyGet_rel h vij.1.2).bind' fun m' m _ hme hm => ?_
        have hmem : m ∈ l := List.mem_of_getElem? (pyGet_eq_ok.1 hme)
        rw [hm.C, hm.vars]
        refine Outcome.bind_self fun c1 hc1 => Outcome.bind_self fun st _ => Outcome.bind_self fun v _ => ?_
        cases v.B with
        | none => exact rfl
        | some B =>
          refine Outcome.bind_self fun T _ => ?_
          refine (compProb_rel hR hm c1 (T.sort_nodup (· ≤ ·))).mono fun a b hab => hR.mono _ _ _ _ ?_ hab
          have : c1.length = m.C.length := (mapM_ok_forall₂ hc1).length_eq.symm
          have := hn m hmem
          omega
      refine hin.bind' fun fs' fs _ hfs hf => ?_
      refine hR.mono _ _ _ _ ?_ (foldMul_rel hR hf hx)
      have : fs.length = mult.length := by
        rw [← (mapM_ok_forall₂ hfs).length_eq, List.length_zipIdx]
      rw [this]
      exact Nat.add_le_add_left (Nat.mul_le_mul_right _ hmult) _)
  refine hp.bind fun p' p hp => mk'_rel ⟨rfl, rfl, rfl, hp, ⟨rfl, rfl, rfl, rfl⟩, rfl⟩

theorem prodMsys_rows {S P : Cpm K} {l : List (Cpm K)} (h : prodMsysMcomps S l = .ok P) :
    P.C.length = S.C.length := by
  unfold prodMsysMcomps at h
  obtain ⟨_, -, h⟩ := bind_ok.1 h
  obtain ⟨names, -, h⟩ := bind_ok.1 h
  simp only at h
  obtain ⟨cond, -, h⟩ := bind_ok.1 h
  split at h
  · cases h
  · obtain ⟨cols, -, h⟩ := bind_ok.1 h
    obtain ⟨C, hC, h⟩ := bind_ok.1 h
    obtain ⟨p, -, h⟩ := bind_ok.1 h
    rw [mk'_eq h]
    simpa using (mapM_ok_forall₂ hC).length_eq.symm

end Prod

section Dict
variable {K : Type} [LinearOrder K] {A : Arith} {R : ℕ → ℚ → ℚ → Prop}

/-- Two dictionaries with the same keys and related tables. -/
def DictRel (S : ℚ → ℚ → Prop) (d' d : List (K × Cpm K)) : Prop :=
  Forall₂ (fun a b => a.1 = b.1 ∧ SameTable S a.2 b.2) d' d

/-- Number of columns of all tables. -/
def colsD (d : List (K × Cpm K)) : ℕ := (d.map fun km => km.2.vars.length).sum

/-- Product of the numbers of rows. -/
def rowsD (d : List (K × Cpm K)) : ℕ := (d.map fun km => rows1 km.2).prod

theorem rowsD_eq (d : List (K × Cpm K)) : rowsD d = ((d.map Prod.snd).map rows1).prod := by
  unfold rowsD; rw [List.map_map]; rfl

theorem lookup_dict {S : ℚ → ℚ → Prop} {d' d : List (K × Cpm K)} (h : DictRel S d' d) (k : K) :
    Option.Rel (SameTable S) (d'.lookup k) (d.lookup k) := by
  induction h with
  | nil => exact Option.Rel.none
  | @cons a b d' d h1 _ ih =>
    obtain ⟨a1, a2⟩ := a
    obtain ⟨b1, b2⟩ := b
    obtain ⟨e, h1⟩ := h1
    simp only at e h1
    subst e
    rw [List.lookup_cons, List.lookup_cons]
    cases k == a1
    · exact ih
    · exact Option.Rel.some h1

theorem assocGet_rel {S : ℚ → ℚ → Prop} {d' d : List (K × Cpm K)} (h : DictRel S d' d) (k : K) :
    Outcome (SameTable S) (assocGet d' k) (assocGet d k) := by
  unfold assocGet
  have := lookup_dict h k
  revert this
  generalize d'.lookup k = x
  generalize d.lookup k = y
  intro this
  cases this with
  | none => exact rfl
  | some h => exact h

theorem filter_dict {S : ℚ → ℚ → Prop} {d' d : List (K × Cpm K)} (h : DictRel S d' d) (k : K) :
    DictRel S (d'.filter fun km => km.1 ≠ k) (d.filter fun km => km.1 ≠ k) := by
  induction h with
  | nil => exact Forall₂.nil
  | @cons a b d' d h1 _ ih =>
    rw [List.filter_cons, List.filter_cons, h1.1]
    split
    · exact Forall₂.cons h1 ih
    · exact ih

theorem snd_dict {S : ℚ → ℚ → Prop} {d' d : List (K × Cpm K)} (h : DictRel S d' d) :
    d'.map Prod.fst = d.map Prod.fst ∧ Forall₂ (SameTable S) (d'.map Prod.snd) (d.map Prod.snd) := by
  induction h with
  | nil => exact ⟨rfl, Forall₂.nil⟩
  | cons h1 _ ih => exact ⟨by rw [List.map_cons, List.map_cons, ih.1, h1.1], Forall₂.cons h1.2 ih.2⟩

theorem zip_dict {S : ℚ → ℚ → Prop} {l' l : List (Cpm K)} (h : Forall₂ (SameTable S) l' l) :
    ∀ ks : List K, DictRel S (ks.zip l') (ks.zip l) := by
  induction h with
  | nil => intro ks; simp [DictRel]
  | cons h1 _ ih =>
    intro ks
    cases ks with
    | nil => exact Forall₂.nil
    | cons k ks => exact Forall₂.cons ⟨rfl, h1⟩ (ih ks)

/-- Looking up one table takes it out of the dictionary. -/
theorem lookup_split {d : List (K × Cpm K)} {k : K} {X : Cpm K} (h : d.lookup k = some X) :
    ∃ d0, d.Perm ((k, X) :: d0) ∧ (d.filter fun km => km.1 ≠ k).Sublist d0 := by
  induction d with
  | nil => cases h
  | cons a d ih =>
    obtain ⟨y, Y⟩ := a
    rw [List.lookup_cons] at h
    by_cases hy : k = y
    · subst hy
      simp only [BEq.rfl] at h
      cases h
      refine ⟨d, List.Perm.refl _, ?_⟩
      rw [List.filter_cons_of_neg (by simp)]
      exact List.filter_sublist
    · have : (k == y) = false := by simpa using hy
      rw [this] at h
      obtain ⟨d0, h1, h2⟩ := ih h
      refine ⟨(y, Y) :: d0, ?_, ?_⟩
      · exact (h1.cons _).trans (List.Perm.swap _ _ _)
      · rw [List.filter_cons_of_pos (by simpa using fun e => hy e.symm)]
        exact h2.cons_cons _

theorem lookup_sizes {d : List (K × Cpm K)} {k : K} {X : Cpm K} (h : d.lookup k = some X) :
    (d.filter fun km => km.1 ≠ k).length + 1 ≤ d.length ∧
    rows1 X * rowsD (d.filter fun km => km.1 ≠ k) ≤ rowsD d ∧
    X.vars.length + colsD (d.filter fun km => km.1 ≠ k) ≤ colsD d := by
  obtain ⟨d0, h1, h2⟩ := lookup_split h
  refine ⟨?_, ?_, ?_⟩
  · rw [h1.length_eq, List.length_cons]
    exact Nat.add_le_add_right h2.length_le 1
  · have e : rowsD d = rows1 X * rowsD d0 := by
      unfold rowsD
      rw [(h1.map _).prod_eq, List.map_cons, List.prod_cons]
    rw [e]
    refine Nat.mul_le_mul_left _ ?_
    rw [rowsD_eq, rowsD_eq]
    exact sublist_rows (h2.map _)
  · have e : colsD d = X.vars.length + colsD d0 := by
      unfold colsD
      rw [(h1.map _).sum_eq, List.map_cons, List.sum_cons]
    rw [e]
    exact Nat.add_le_add_left ((h2.map _).sum_le_sum fun _ _ => Nat.zero_le _) _

theorem rowsD_pos (d : List (K × Cpm K)) : 1 ≤ rowsD d := by
  rw [rowsD_eq]; exact prod_pos1 _

theorem product_vars_length {S M P : Cpm K} (h : S.product M = .ok P) :
    P.vars.length ≤ S.vars.length + M.vars.length := by
  have core : ∀ {S M P : Cpm K}, productCore S M = .ok P → P.vars.length ≤ S.vars.length + M.vars.length := by
    intro S M P h
    unfold productCore at h
    obtain ⟨_, -, h⟩ := bind_ok.1 h
    simp only at h
    split at h
    · cases h
    · obtain ⟨cv, -, h⟩ := bind_ok.1 h
      obtain ⟨nv, -, h⟩ := bind_ok.1 h
      obtain ⟨⟨C, p⟩, hr, h⟩ := bind_ok.1 h
      obtain ⟨M1, h1, h⟩ := bind_ok.1 h
      obtain ⟨M2, h2, h⟩ := bind_ok.1 h
      have e1 := mk'_eq h1
      have e2 : M2.vars = M1.vars := by
        unfold Cpm.sort at h2
        obtain ⟨C, hC, h2⟩ := bind_ok.1 h2
        obtain ⟨_, -, h2⟩ := bind_ok.1 h2
        obtain ⟨p, -, h2⟩ := bind_ok.1 h2
        obtain ⟨_, -, h2⟩ := bind_ok.1 h2
        obtain ⟨q, -, h2⟩ := bind_ok.1 h2
        obtain ⟨_, -, h2⟩ := bind_ok.1 h2
        obtain ⟨si, -, h2⟩ := bind_ok.1 h2
        obtain ⟨_, -, h2⟩ := bind_ok.1 h2
        cases h2
        rfl
      have hM2 : M2.vars.length ≤ S.vars.length + M.vars.length := by
        rw [e2, e1]
        simp only [List.length_append]
        have a1 : (sortVars (S.vars.take S.noChild ++ M.vars.take M.noChild)).length =
            (S.vars.take S.noChild).length + (M.vars.take M.noChild).length := by
          unfold sortVars
          rw [List.length_insertionSort, List.length_append]
        have a2 : ∀ a b : List (Variable K), (setdiffOn Variable.name a b).1.length ≤ a.length := by
          exact fun a b => (setdiffOn_fst_sublist _ a b).length_le
        have a3 := a2 (S.vars.drop S.noChild ++ M.vars.drop M.noChild)
          (sortVars (S.vars.take S.noChild ++ M.vars.take M.noChild))
        rw [List.length_append, List.length_drop, List.length_drop] at a3
        rw [a1, List.length_take, List.length_take]
        omega
      split at h
      · cases h; exact hM2
      · obtain ⟨⟨Cs, q, ps⟩, -, h⟩ := bind_ok.1 h
        rw [mk'_eq h]
        exact hM2
  unfold Cpm.product at h
  split at h
  · rw [Nat.add_comm]; exact core h
  · exact core h

theorem joinComps_rel (hR : Counted A R) {k : ℕ} : ∀ (xs : List K) {s : ℕ} {S' S : Cpm K}
    {d' d : List (K × Cpm K)}, SameTable (R s) S' S → DictRel (R k) d' d →
      Outcome (fun z' z => SameTable (R (s + d.length * (k + 1))) z'.1 z.1 ∧ DictRel (R k) z'.2 z.2 ∧
        z.2.Sublist d ∧ rows1 z.1 ≤ rows1 S * rowsD d ∧ z.1.vars.length ≤ S.vars.length + colsD d)
      (joinCompsR A xs S' d') (joinComps xs S d) := by
  intro xs
  induction xs with
  | nil =>
    intro s S' S d' d hS hd
    refine ⟨hS.mono fun _ _ => hR.mono _ _ _ _ (by omega), hd, List.Sublist.refl _, ?_, by simp⟩
    exact Nat.le_mul_of_pos_right _ (rowsD_pos d)
  | cons x xs ih =>
    intro s S' S d' d hS hd
    unfold joinCompsR joinComps
    refine (assocGet_rel hd x).bind' fun X' X _ hXe hX => ?_
    have hl : d.lookup x = some X := by
      unfold assocGet at hXe
      split at hXe
      · rename_i a ha; cases hXe; exact ha
      · cases hXe
    obtain ⟨l1, l2, l3⟩ := lookup_sizes hl
    refine (product_rel hR hS hX).bind' fun P' P _ hPe hP => ?_
    refine (ih hP (filter_dict hd x)).mono fun z' z hz => ?_
    obtain ⟨z1, z2, z3, z4, z5⟩ := hz
    refine ⟨z1.mono fun _ _ => hR.mono _ _ _ _ ?_, z2, z3.trans List.filter_sublist, z4.trans ?_,
      z5.trans ?_⟩
    · have := Nat.mul_le_mul_right (k + 1) l1
      rw [Nat.add_mul] at this
      omega
    · have hr : rows1 P ≤ rows1 S * rows1 X :=
        max_le (Nat.mul_le_mul (rows1_pos S) (rows1_pos X))
          ((product_rows hPe).trans (Nat.mul_le_mul (le_max_right _ _) (le_max_right _ _)))
      refine (Nat.mul_le_mul_right _ hr).trans ?_
      rw [Nat.mul_assoc]
      exact Nat.mul_le_mul_left _ l2
    · have := product_vars_length hPe
      omega

theorem Counts.forall (hR : Counted A R) {t : ℕ} {l' l : List (Cpm K)} (h : Counts R t l' l) :
    Forall₂ (SameTable (R t)) l' l := by
  induction h with
  | nil => exact Forall₂.nil
  | cons h1 _ ih =>
    refine Forall₂.cons (h1.mono fun _ _ => hR.mono _ _ _ _ (by omega)) ?_
    exact ih.imp fun _ _ hM => hM.mono fun _ _ => hR.mono _ _ _ _ (by omega)

theorem getVariables_same {S : ℚ → ℚ → Prop} {M' M : Cpm K} (h : SameTable S M' M) (ns : List K) :
    M'.getVariables ns = M.getVariables ns := by
  unfold Cpm.getVariables
  rw [h.vars]

theorem zip_snd_sublist {α β : Type} (a : List α) (b : List β) : ((a.zip b).map Prod.snd).Sublist b := by
  induction b generalizing a with
  | nil => simp
  | cons y b ih =>
    cases a with
    | nil => simp
    | cons x a => simpa using ih a

/-- Relative errors of one row: `D` tables, `W` columns, `n`, `c` products of numbers of rows, `V`
variables eliminated, `k` and `t` relative errors given. -/
def rowRoundings (k t D W V n c : ℕ) : ℕ :=
  k + D * (k + 1) + 2 * W * (D * (k + 1) + V * n + n + 1) + n * n + t + 1 + n * n * c

theorem condVERow_rel (hR : Counted A R) {k t W n c : ℕ} {d' d : List (K × Cpm K)}
    (h : DictRel (R k) d' d) (sys : K) (cElm cJnt condNames : List K) (veVars : List (Variable K))
    {M' M : Cpm K} (hM : SameTable (R t) M' M) (hn : rowsD d ≤ n) (hW : colsD d ≤ W)
    (hc : M.C.length ≤ c) (cx : List ℕ) :
    Outcome (fun z' z => SameTable (R (rowRoundings k t d.length W veVars.length n c)) z' z ∧
        z.C.length ≤ n * n * c)
      (condVERowR A d' sys cElm cJnt condNames veVars M' cx)
      (condVERow d sys cElm cJnt condNames veVars M cx) := by
  obtain ⟨hfst, hsnd⟩ := snd_dict h
  unfold condVERowR condVERow
  rw [hM.vars, hfst]
  refine (condition_rel hM M.vars cx).bind' fun m' m _ hme hm => ?_
  rw [hm.C, hm.vars]
  refine Outcome.bind_self fun c0 _ => ?_
  refine (conditionAll_rel hsnd m.vars c0).bind' fun l' l _ hle hl => ?_
  obtain ⟨r1, r2⟩ := conditionAll_rows hle
  have hvl : ((d.map Prod.snd).map fun M : Cpm K => M.vars.length) = l.map fun M => M.vars.length := by
    unfold conditionAll at hle
    have := mapM_ok_forall₂ hle
    clear hle hl r1 r2 hfst hsnd
    generalize d.map Prod.snd = d0 at this
    induction this with
    | nil => rfl
    | cons h1 _ ih => rw [List.map_cons, List.map_cons, ih, condition_vars' h1]
  set d1 := (d.map Prod.fst).zip l with hd1
  have hs1 : (d1.map Prod.snd).Sublist l := zip_snd_sublist _ _
  have hrow1 : rowsD d1 ≤ n := by
    rw [rowsD_eq]
    rw [rowsD_eq] at hn
    exact (sublist_rows hs1).trans (r2.trans hn)
  have hwid1 : colsD d1 ≤ W := by
    have e : colsD d1 = ((d1.map Prod.snd).map fun M : Cpm K => M.vars.length).sum := by
      unfold colsD; rw [List.map_map]; rfl
    have e2 : colsD d = ((d.map Prod.snd).map fun M : Cpm K => M.vars.length).sum := by
      unfold colsD; rw [List.map_map]; rfl
    rw [e]
    refine (((hs1.map _).sum_le_sum fun _ _ => Nat.zero_le _).trans (le_of_eq ?_)).trans hW
    rw [e2, hvl]
  have hlen1 : d1.length ≤ d.length := by
    rw [hd1, List.length_zip, List.length_map]
    exact Nat.min_le_left _ _
  have hdr : DictRel (R k) ((d.map Prod.fst).zip l') d1 := zip_dict hl _
  clear_value d1
  simp only
  refine (assocGet_rel hdr sys).bind' fun S0' S0 _ hSe hS0 => ?_
  have hlk : d1.lookup sys = some S0 := by
    unfold assocGet at hSe
    split at hSe
    · rename_i a ha; cases hSe; exact ha
    · cases hSe
  obtain ⟨-, q2, q3⟩ := lookup_sizes hlk
  have hS0r : rows1 S0 ≤ n := (Nat.le_mul_of_pos_right _ (rowsD_pos _)).trans (q2.trans hrow1)
  refine (joinComps_rel hR cJnt hS0 hdr).bind' fun z' z _ _ hz => ?_
  obtain ⟨S', d2'⟩ := z'
  obtain ⟨S, d2⟩ := z
  obtain ⟨z1, z2, z3, z4, z5⟩ := hz
  simp only at z1 z2 z3 z4 z5 ⊢
  have hSr : rows1 S ≤ n * n := z4.trans (Nat.mul_le_mul hS0r hrow1)
  have hSw : S.vars.length ≤ 2 * W := by omega
  obtain ⟨-, hsnd2⟩ := snd_dict (filter_dict z2 sys)
  have hsub : ((d2.filter fun km => km.1 ≠ sys).map Prod.snd).Sublist (d1.map Prod.snd) :=
    (List.filter_sublist.trans z3).map _
  have hrow2 : (((d2.filter fun km => km.1 ≠ sys).map Prod.snd).map rows1).prod ≤ n := by
    refine (sublist_rows hsub).trans ?_
    rw [← rowsD_eq]; exact hrow1
  have hlen2 : ((d2.filter fun km => km.1 ≠ sys).map Prod.snd).length ≤ d.length := by
    refine hsub.length_le.trans ?_
    rw [List.length_map]; exact hlen1
  refine (elimList_rel hR veVars (Counts.of_forall hsnd2) le_rfl).bind' fun c1' c1 _ hce hcc => ?_
  obtain ⟨t2, ht2, hle2⟩ := hcc
  have hT : t2 ≤ d.length * (k + 1) + veVars.length * n := by
    have a1 := (elimRows_le veVars ((d2.filter fun km => km.1 ≠ sys).map Prod.snd)).trans
      (Nat.mul_le_mul_left _ hrow2)
    have a2 := Nat.mul_le_mul_right (k + 1) hlen2
    rw [Nat.mul_succ] at a2
    omega
  have hcn : ∀ m ∈ c1, m.C.length ≤ n := fun m hm =>
    (le_max_right _ _).trans ((rows1_le_prod hm).trans ((elimList_rows veVars hce).trans hrow2))
  refine (prodMsys_rel hR z1 (ht2.forall hR) hcn hSw).bind' fun P' P _ hPe hP => ?_
  have hPr : P.C.length ≤ n * n := by
    rw [prodMsys_rows hPe]
    exact (le_max_right _ _).trans hSr
  rw [getVariables_same hP]
  refine Outcome.bind_self fun ev _ => ?_
  refine (sum_rel hP (fun l' l hl hn => hR.sum _ _ _ _ hl hn) ev true).bind' fun Q' Q _ hQe hQ => ?_
  refine (product_rel hR hQ hm).bind' fun N' N _ hNe hN => ?_
  have hNr : N.C.length ≤ n * n * c :=
    (product_rows hNe).trans (Nat.mul_le_mul ((sum_rows hQe).trans hPr) ((condition_rows hme).trans hc))
  rw [getVariables_same hN]
  refine Outcome.bind_self fun cv _ => ?_
  have hfin := sum_rel hN (fun l' l hl hn => hR.sum _ _ _ _ hl hn) cv true
  have key : k + d1.length * (k + 1) + 2 * W * (t2 + n + 1) + P.C.length + t + 1 + N.C.length ≤
      rowRoundings k t d.length W veVars.length n c := by
    unfold rowRoundings
    have b1 := Nat.mul_le_mul_right (k + 1) hlen1
    have b2 : 2 * W * (t2 + n + 1) ≤ 2 * W * (d.length * (k + 1) + veVars.length * n + n + 1) :=
      Nat.mul_le_mul_left _ (by omega)
    omega
  refine hfin.with_ok.mono fun a b hab => ⟨hab.1.mono fun _ _ => hR.mono _ _ _ _ ?_,
    (sum_rows hab.2).trans hNr⟩
  refine le_trans (le_of_eq ?_) key
  ring

theorem condVELoop_rel (hR : Counted A R) {a e : ℕ} {row' row : List ℕ → Except Err (Cpm K)}
    (hrow : ∀ cx, Outcome (fun z' z => SameTable (R a) z' z ∧ z.C.length ≤ e) (row' cx) (row cx)) :
    ∀ (rows : List (List ℕ)) {m : ℕ} {M' M : Option (Cpm K)}, a ≤ m → Option.Rel (SameTable (R m)) M' M →
      Outcome (SameTable (R (m + rows.length * (2 * e)))) (condVELoopR A row' rows M')
        (condVELoop row rows M) := by
  intro rows
  induction rows with
  | nil =>
    intro m M' M _ h
    cases h with
    | none => exact rfl
    | some h => exact h.mono fun _ _ => hR.mono _ _ _ _ (by simp)
  | cons cx rest ih =>
    intro m M' M hm h
    unfold condVELoopR condVELoop
    have hle : ∀ {b}, b ≤ m + 2 * e → b + rest.length * (2 * e) ≤ m + (cx :: rest).length * (2 * e) := by
      intro b hb
      generalize 2 * e = w at hb ⊢
      rw [List.length_cons, Nat.succ_mul]
      omega
    refine (hrow cx).bind fun z' z hz => ?_
    cases h with
    | none =>
      refine (ih hm (Option.Rel.some (hz.1.mono fun _ _ => hR.mono _ _ _ _ hm))).mono fun x y hxy =>
        hxy.mono fun _ _ => hR.mono _ _ _ _ (hle (by omega))
    | @some Y' Y hY =>
      refine (merge_rel hR hm hY hz.1).bind fun w' w hw => ?_
      refine (ih (by omega) (Option.Rel.some hw)).mono fun x y hxy =>
        hxy.mono fun _ _ => hR.mono _ _ _ _ (hle ?_)
      have := hz.2
      omega

theorem infLoop_rel {S : ℚ → ℚ → Prop} {d' d : List (K × Cpm K)} (h : DictRel S d' d) :
    ∀ (n : ℕ) (cp inf : List K), infLoop d' n cp inf = infLoop d n cp inf := by
  intro n
  induction n with
  | zero => intro cp inf; cases cp <;> rfl
  | succ n ih =>
    intro cp inf
    cases cp with
    | nil => rfl
    | cons v cp =>
      unfold infLoop
      have hl := lookup_dict h v
      revert hl
      generalize d'.lookup v = x
      generalize d.lookup v = y
      intro hl
      cases hl with
      | none => rfl
      | some hl => simp only [hl.vars, hl.noChild, ih]

theorem getInfVars_rel {S : ℚ → ℚ → Prop} {d' d : List (K × Cpm K)} (h : DictRel S d' d) (vs : List K)
    (o : Option (List K)) : getInfVars d' vs o = getInfVars d vs o := by
  have e : d'.length = d.length := Forall₂.length_eq h
  unfold getInfVars
  rw [e, infLoop_rel h]

theorem getInfVars_nodup {d : List (K × Cpm K)} {sys : K} {o inf : List K}
    (h : getInfVars d [sys] (some o) = .ok inf) : inf.Nodup := by
  by_cases hr : ∀ k, Relevant d [sys] k → ∃ M, d.lookup k = some M
  · obtain ⟨r, h1, -, h2, -⟩ := C42_ordered d [sys] o hr
    rw [h] at h1
    cases h1
    exact h2 (by simp)
  · push Not at hr
    obtain ⟨k, hk, hn⟩ := hr
    have hl : d.lookup k = none := by
      cases hx : d.lookup k with
      | none => rfl
      | some M => exact (hn M hx).elim
    have he := (C42_relevant d [sys]).2 ⟨k, hk, hl⟩
    unfold getInfVars at h he
    obtain ⟨r, h1, -⟩ := bind_ok.1 h
    rw [h1] at he
    cases he

theorem lookup_filter_ne {d : List (K × Cpm K)} {k x : K} (h : x ≠ k) :
    (d.filter fun km => km.1 ≠ k).lookup x = d.lookup x := by
  induction d with
  | nil => rfl
  | cons a d ih =>
    obtain ⟨y, Y⟩ := a
    by_cases hy : y = k
    · subst hy
      rw [List.filter_cons_of_neg (by simp), ih, List.lookup_cons]
      have : (x == y) = false := by simpa using h
      rw [this]
    · rw [List.filter_cons_of_pos (by simpa using hy), List.lookup_cons, List.lookup_cons, ih]

theorem assocGet_eq {d : List (K × Cpm K)} {k : K} {X : Cpm K} (h : assocGet d k = .ok X) :
    d.lookup k = some X := by
  unfold assocGet at h
  split at h
  · rename_i a ha; cases h; exact ha
  · cases h

theorem mapM_filter_ne {d : List (K × Cpm K)} {k : K} (keys : List K) (hk : k ∉ keys) :
    keys.mapM (assocGet (d.filter fun km => km.1 ≠ k)) = keys.mapM (assocGet d) := by
  induction keys with
  | nil => rfl
  | cons x keys ih =>
    rw [List.mapM_cons, List.mapM_cons, ih fun h => hk (by simp [h])]
    have : assocGet (d.filter fun km => km.1 ≠ k) x = assocGet d x := by
      unfold assocGet
      rw [lookup_filter_ne (fun e => hk (by simp [e]))]
    rw [this]

/-- Different keys give different entries of the dictionary. -/
theorem keys_sizes : ∀ (keys : List K) {d : List (K × Cpm K)} {l : List (Cpm K)}, keys.Nodup →
    keys.mapM (assocGet d) = .ok l →
    keys.length ≤ d.length ∧ rowsD (keys.zip l) ≤ rowsD d ∧ colsD (keys.zip l) ≤ colsD d := by
  intro keys
  induction keys with
  | nil =>
    intro d l _ h
    refine ⟨by simp, ?_, by simp [colsD]⟩
    simpa [rowsD] using rowsD_pos d
  | cons k keys ih =>
    intro d l hn h
    rw [List.mapM_cons] at h
    obtain ⟨X, hX, h⟩ := bind_ok.1 h
    obtain ⟨l1, hl1, h⟩ := bind_ok.1 h
    cases h
    obtain ⟨hk, hn⟩ := List.nodup_cons.1 hn
    obtain ⟨s1, s2, s3⟩ := lookup_sizes (assocGet_eq hX)
    have hl2 : keys.mapM (assocGet (d.filter fun km => km.1 ≠ k)) = .ok l1 := by
      rw [← hl1]
      exact mapM_filter_ne keys hk
    obtain ⟨i1, i2, i3⟩ := ih hn hl2
    refine ⟨by rw [List.length_cons]; omega, ?_, ?_⟩
    · have e : rowsD ((k :: keys).zip (X :: l1)) = rows1 X * rowsD (keys.zip l1) := by
        unfold rowsD; simp
      rw [e]
      exact (Nat.mul_le_mul_left _ i2).trans s2
    · have e : colsD ((k :: keys).zip (X :: l1)) = X.vars.length + colsD (keys.zip l1) := by
        unfold colsD; simp
      rw [e]
      omega

theorem lookup_rows {d : List (K × Cpm K)} {ks : List K} {l : List (Cpm K)}
    (h : Forall₂ (fun k M => assocGet d k = .ok M) ks l) : (l.map rows1).prod =
      (ks.map fun x => max 1 (((d.lookup x).map fun M => M.C.length).getD 0)).prod := by
  induction h with
  | nil => rfl
  | cons h1 _ ih =>
    rw [List.map_cons, List.map_cons, List.prod_cons, List.prod_cons, ih, assocGet_eq h1]
    rfl

theorem calMsys_rel (hR : Counted A R) {k : ℕ} {d' d : List (K × Cpm K)} (h : DictRel (R k) d' d)
    (varis : List (K × Variable K)) (cond veOrd : List K) (sys : K) :
    Outcome (SameTable (R (condVERoundings k d cond))) (calMsysByCondVER A d' varis cond veOrd sys)
      (calMsysByCondVE d varis cond veOrd sys) := by
  unfold calMsysByCondVER calMsysByCondVE
  rw [getInfVars_rel h]
  refine Outcome.bind_self fun inf hinf => ?_
  refine (assocGet_rel h sys).bind fun S' S hS => ?_
  rw [hS.vars, hS.noChild]
  simp only
  set cN := (S.vars.drop S.noChild).map Variable.name with hcN
  refine Outcome.bind_self fun veVars hve => ?_
  set ve := veNames inf cond veOrd cN with hvedef
  set keys := firstOccOn id (ve ++ cN ++ jntNames veOrd cN ++ [sys]) with hkeys
  have hkn : keys.Nodup := by
    have := firstOccOn_nodup (id : K → K) (ve ++ cN ++ jntNames veOrd cN ++ [sys])
    rwa [List.map_id] at this
  have hl : Outcome (Forall₂ (SameTable (R k))) (keys.mapM (assocGet d')) (keys.mapM (assocGet d)) :=
    Outcome.mapM keys fun x _ => assocGet_rel h x
  refine hl.bind' fun l' l _ hle hl => ?_
  obtain ⟨k1, k2, k3⟩ := keys_sizes keys hkn hle
  have hcr : Outcome (Forall₂ (SameTable (R k))) (cond.mapM (assocGet d')) (cond.mapM (assocGet d)) :=
    Outcome.mapM cond fun x _ => assocGet_rel h x
  refine hcr.bind' fun cl' cl _ hcle hcl => ?_
  have hcl2 : cl.length = cond.length := (mapM_ok_forall₂ hcle).length_eq.symm
  have hcrows : (cl.map rows1).prod = (cond.map fun x => max 1 (((d.lookup x).map fun M =>
      M.C.length).getD 0)).prod := by
    exact lookup_rows (mapM_ok_forall₂ hcle)
  refine (productList_rel hR (Counts.of_forall hcl)).bind' fun P' P _ hPe hP => ?_
  have hPr : P.C.length ≤ (cl.map rows1).prod := (le_max_right _ _).trans (productList_rows hPe)
  rw [hP.C]
  have hV : veVars.length ≤ d.length := by
    have e1 : veVars.length = (ve.filter fun v => v ≠ sys).length := (mapM_ok_forall₂ hve).length_eq.symm
    rw [e1]
    refine (List.length_filter_le _ _).trans (le_trans ?_ k1)
    have hvn : ve.Nodup := (getInfVars_nodup hinf).filter _
    refine (List.Nodup.subperm hvn fun x hx => ?_).length_le
    have := mem_firstOccOn_key (id : K → K) (ve ++ cN ++ jntNames veOrd cN ++ [sys]) x
    rw [List.map_id, List.map_id] at this
    rw [hkeys, this]
    simp [hx]
  have hloop := condVELoop_rel hR (fun cx => condVERow_rel hR (zip_dict hl keys) sys (elmNames veOrd cN)
    (jntNames veOrd cN) cond veVars hP k2 k3 hPr cx) P.C le_rfl Option.Rel.none
  refine hloop.mono fun x y hxy => hxy.mono fun _ _ => hR.mono _ _ _ _ ?_
  have hne : 1 ≤ cond.length := by rw [← hcl2]; exact productList_ne hPe
  have hz : (keys.zip l).length ≤ d.length := by
    rw [List.length_zip]
    exact (Nat.min_le_left _ _).trans k1
  have e : condVERoundings k d cond = (d.length + cond.length + 1) * (k + 1) +
      2 * colsD d * (d.length * (k + 1) + d.length * rowsD d + rowsD d + 1) + rowsD d * rowsD d +
      rowsD d * rowsD d * (cl.map rows1).prod +
      (cl.map rows1).prod * (2 * (rowsD d * rowsD d * (cl.map rows1).prod)) := by
    rw [hcrows]; rfl
  rw [e, hcl2]
  unfold rowRoundings
  have b1 := Nat.mul_le_mul_right (k + 1) hz
  have b2 : 2 * colsD d * ((keys.zip l).length * (k + 1) + veVars.length * rowsD d + rowsD d + 1) ≤
      2 * colsD d * (d.length * (k + 1) + d.length * rowsD d + rowsD d + 1) :=
    Nat.mul_le_mul_left _ (by
      have := Nat.mul_le_mul_right (rowsD d) hV
      omega)
  have b3 := Nat.mul_le_mul_right (2 * (rowsD d * rowsD d * (cl.map rows1).prod)) hPr
  have b4 : (d.length + cond.length + 1) * (k + 1) =
      d.length * (k + 1) + (cond.length * k + cond.length) + (k + 1) := by ring
  rw [b4]
  omega

end Dict

end BNS
