import Verif.Proofs.BnbDir
import Verif.Proofs.CpmProd

/-!
# Lemmas on the event matrix of binary branches
-/

namespace BNS

set_option linter.unusedSectionVars false

variable {K : Type} [DecidableEq K]

/-- One column: the index of the union of the two basic states. -/
theorem cmatCol_ok {v : Variable K} (hB : v.B = some (genB v.values.length))
    (h2 : 2 ≤ v.values.length) {l u : ℕ} (hlu : l ≤ u) (hu : u ≤ 1) :
    ∃ c, (do let s1 ← tableGet v l; let s2 ← tableGet v u; tableIndex v (s1 ∪ s2)) = .ok c ∧
      c + 1 < 2 ^ v.values.length ∧ ∀ i, i ∈ stateSet v c ↔ l ≤ i ∧ i ≤ u := by
  have hget : ∀ i ≤ 1, tableGet v i = .ok {i} := by
    intro i hi
    have hlt : i < v.values.length := by omega
    have h1 := genB_getElem_lt _ _ hlt
    unfold tableGet
    rw [hB]
    simp only
    rw [pyGet_lt (List.getElem?_eq_some_iff.1 h1).1 ∅, List.getD_eq_getElem?_getD, h1]
    rfl
  have hmem : ({l} ∪ {u} : Finset ℕ) ∈ genB v.values.length := by
    rw [mem_genB]
    refine ⟨⟨l, by simp⟩, fun i hi => ?_⟩
    simp only [Finset.mem_union, Finset.mem_singleton] at hi
    omega
  refine ⟨(genB v.values.length).idxOf ({l} ∪ {u}), ?_, ?_, fun i => ?_⟩
  · rw [hget l (by omega), ok_bind, hget u hu, ok_bind]
    unfold tableIndex
    rw [hB]
    simp only
    rw [pyIndex_eq, if_pos hmem]
  · have := List.idxOf_lt_length_of_mem hmem
    rw [length_genB] at this
    omega
  · have : stateSet v ((genB v.values.length).idxOf ({l} ∪ {u})) = {l} ∪ {u} := by
      unfold stateSet
      rw [hB]
      simp only
      rw [List.getD_eq_getElem?_getD, List.getElem?_eq_getElem (List.idxOf_lt_length_of_mem hmem),
        List.getElem_idxOf]
      rfl
    rw [this, Finset.mem_union, Finset.mem_singleton, Finset.mem_singleton]
    omega

/-- The variables of the arcs: complete stored tables of at least two states. -/
def ArcVars (vars : List (K × Variable K)) : Prop :=
  ∀ kv ∈ vars, kv.2.name = kv.1 ∧ kv.2.B = some (genB kv.2.values.length) ∧
    2 ≤ kv.2.values.length

theorem cmatRow_ok {vars : List (K × Variable K)} (hv : ArcVars vars) {b : BBranch K}
    (hb : BBoxOK (vars.map Prod.fst) b) (hd : b.fl = b.fu) :
    ∃ cs, cmatRow b vars = .ok (b.fl :: cs) ∧ cs.length = vars.length ∧
      (∀ vc ∈ (vars.map Prod.snd).zip cs, vc.2 + 1 < 2 ^ vc.1.values.length) ∧
      ∀ x, RowMatches (vars.map Prod.snd) cs x ↔ InBBox (vars.map Prod.fst) b x := by
  have key : ∀ vs : List (K × Variable K), (∀ kv ∈ vs, kv ∈ vars) →
      ∃ cs, (vs.mapM fun kv => do
        let l ← arcGet b.lower kv.1
        let s1 ← tableGet kv.2 l
        let u ← arcGet b.upper kv.1
        let s2 ← tableGet kv.2 u
        tableIndex kv.2 (s1 ∪ s2)) = Except.ok cs ∧ cs.length = vs.length ∧
      (∀ vc ∈ (vs.map Prod.snd).zip cs, vc.2 + 1 < 2 ^ vc.1.values.length) ∧
      ∀ x, RowMatches (vs.map Prod.snd) cs x ↔ InBBox (vs.map Prod.fst) b x := by
    intro vs
    induction vs with
    | nil => exact fun _ => ⟨[], rfl, rfl, by simp, fun x => by simp [RowMatches, InBBox]⟩
    | cons kv vs ih =>
      intro hm
      obtain ⟨cs, e1, e2, e3, e4⟩ := ih fun kv h => hm kv (by simp [h])
      have hkv := hm kv (by simp)
      obtain ⟨h1, h2, h3⟩ := hv kv hkv
      have hk : kv.1 ∈ vars.map Prod.fst := List.mem_map_of_mem hkv
      obtain ⟨c, f1, f2, f3⟩ := cmatCol_ok h2 h3 (hb.le _ hk) (hb.bin _ hk)
      refine ⟨c :: cs, ?_, by simp [e2], fun vc hvc => ?_, fun x => ?_⟩
      · rw [List.mapM_cons, e1, arcGet_ok (by rw [hb.lower]; exact hk), ok_bind,
          arcGet_ok (by rw [hb.upper]; exact hk)]
        simp only [ok_bind]
        rw [f1]
        rfl
      · rw [List.map_cons, List.zip_cons_cons, List.mem_cons] at hvc
        rcases hvc with rfl | hvc
        · exact f2
        · exact e3 vc hvc
      · have := e4 x
        unfold RowMatches InBBox at this ⊢
        rw [List.map_cons, List.map_cons, List.zip_cons_cons, List.forall_mem_cons,
          List.forall_mem_cons, this, h1, f3]
  obtain ⟨cs, e1, e2, e3, e4⟩ := key vars fun _ h => h
  refine ⟨cs, ?_, e2, e3, e4⟩
  unfold cmatRow
  rw [if_pos hd, e1]
  rfl

instance : Std.Total fun (a b : List ℕ) => a.headD 0 ≤ b.headD 0 :=
  ⟨fun a b => le_total (a.headD 0) (b.headD 0)⟩

instance : IsTrans (List ℕ) fun a b => a.headD 0 ≤ b.headD 0 :=
  ⟨fun _ _ _ h1 h2 => le_trans h1 h2⟩

/-- A row of the matrix stands for a branch. -/
def RowOf (vars : List (K × Variable K)) (b : BBranch K) (r : List ℕ) : Prop :=
  ∃ cs, r = b.fl :: cs ∧ cs.length = vars.length ∧
    (∀ vc ∈ (vars.map Prod.snd).zip cs, vc.2 + 1 < 2 ^ vc.1.values.length) ∧
    ∀ x, RowMatches (vars.map Prod.snd) cs x ↔ InBBox (vars.map Prod.fst) b x

theorem cmat_ok {vars : List (K × Variable K)} (hv : ArcVars vars) {brs : List (BBranch K)}
    (hb : ∀ b ∈ brs, BBoxOK (vars.map Prod.fst) b ∧ b.fl = b.fu) :
    ∃ C rows, cmatFromBranches brs vars = .ok C ∧ C.Perm rows ∧
      C.Pairwise (fun a b => a.headD 0 ≤ b.headD 0) ∧ List.Forall₂ (RowOf vars) brs rows := by
  have key : ∃ rows, (brs.mapM fun b => cmatRow b vars) = Except.ok rows ∧
      List.Forall₂ (RowOf vars) brs rows := by
    induction brs with
    | nil => exact ⟨[], rfl, .nil⟩
    | cons b brs ih =>
      obtain ⟨rows, e1, e2⟩ := ih fun b h => hb b (by simp [h])
      obtain ⟨h1, h2⟩ := hb b (by simp)
      obtain ⟨cs, f1, f2, f3, f4⟩ := cmatRow_ok hv h1 h2
      exact ⟨(b.fl :: cs) :: rows, by rw [List.mapM_cons, f1, ok_bind, e1]; rfl,
        .cons ⟨cs, rfl, f2, f3, f4⟩ e2⟩
  obtain ⟨rows, e1, e2⟩ := key
  refine ⟨_, rows, ?_, List.perm_insertionSort _ _, List.pairwise_insertionSort _ _, e2⟩
  unfold cmatFromBranches
  rw [e1]
  rfl

end BNS
