import Verif.Model.Pipes
import Verif.Proofs.Trans
import Mathlib.Tactic.Ring
import Mathlib.Algebra.BigOperators.Group.List.Basic

/-!
# Lemmas on `pipes_sys.py`: the rows of the integer program say what a pipe flow is
-/

namespace BNS

set_option linter.unusedSectionVars false

section
variable {E K : Type} [DecidableEq E] [DecidableEq K] {S : PipeSys E K} {compOf : E → K}
variable {vs : List (K × ℕ)}

/-- `{e: i for i, e in enumerate(edges)}`. -/
def enumIdx (S : PipeSys E K) : List (E × ℕ) := (S.edges.map Prod.fst).zipIdx

/-- The entries `r` for the arcs, `s` for the origins. -/
def vec (S : PipeSys E K) (r : E × K × K → ℚ) (s : K → ℚ) : List ℚ :=
  S.edges.map r ++ (S.depot 0).map s

theorem vec_length (r : E × K × K → ℚ) (s : K → ℚ) :
    (vec S r s).length = S.edges.length + (S.depot 0).length := by simp [vec]

theorem vec_congr {r r' : E × K × K → ℚ} {s s' : K → ℚ} (h : ∀ ep ∈ S.edges, r ep = r' ep)
    (h' : ∀ o ∈ S.depot 0, s o = s' o) : vec S r s = vec S r' s' := by
  unfold vec
  rw [List.map_congr_left h, List.map_congr_left h']

theorem zipWith_map_same {A : Type} (l : List A) (f g : A → ℚ) :
    List.zipWith (· * ·) (l.map f) (l.map g) = l.map fun a => f a * g a := by
  induction l with
  | nil => rfl
  | cons a l ih => simp [ih]

theorem dot_vec (r f : E × K × K → ℚ) (s u : K → ℚ) : dot (vec S r s) (vec S f u) =
    (S.edges.map fun ep => r ep * f ep).sum + ((S.depot 0).map fun o => s o * u o).sum := by
  unfold dot vec
  rw [List.zipWith_append (by simp), List.sum_append, zipWith_map_same, zipWith_map_same]

theorem nodup_of_fst {A B : Type} {l : List (A × B)} (h : (l.map Prod.fst).Nodup) : l.Nodup :=
  List.Nodup.of_map _ h

theorem map_set_update {A : Type} [DecidableEq A] {l : List A} (hn : l.Nodup) (f : A → ℚ) {i : ℕ} {a : A}
    (h : l[i]? = some a) (v : ℚ) :
    (l.map f).set i v = l.map fun b => if b = a then v else f b := by
  induction l generalizing i with
  | nil => simp at h
  | cons b l ih =>
    rw [List.nodup_cons] at hn
    cases i with
    | zero =>
      simp only [List.getElem?_cons_zero, Option.some.injEq] at h
      subst h
      simp only [List.map_cons, List.set_cons_zero, if_true]
      congr 1
      refine List.map_congr_left fun c hc => ?_
      rw [if_neg (show ¬ (c = b) from fun hh => hn.1 (hh ▸ hc))]
    | succ i =>
      simp only [List.getElem?_cons_succ] at h
      have hb : b ≠ a := fun hh => hn.1 (hh ▸ List.mem_of_getElem? h)
      simp only [List.map_cons, List.set_cons_succ, if_neg hb]
      rw [ih hn.2 h]

theorem setEntry_edge (hn : (S.edges.map Prod.fst).Nodup) (r : E × K × K → ℚ) (s : K → ℚ) {i : ℕ}
    {ep : E × K × K} (h : S.edges[i]? = some ep) (v : ℚ) :
    setEntry (vec S r s) i v = .ok (vec S (fun b => if b = ep then v else r b) s) := by
  have hi : i < S.edges.length := (List.getElem?_eq_some_iff.1 h).1
  rw [setEntry, if_pos (by rw [vec_length]; omega)]
  unfold vec
  rw [List.set_append_left _ _ (by simpa using hi), map_set_update (nodup_of_fst hn) r h]

theorem setEntry_origin (hn : (S.depot 0).Nodup) (r : E × K × K → ℚ) (s : K → ℚ) {i : ℕ} {o : K}
    (h : (S.depot 0)[i]? = some o) (v : ℚ) :
    setEntry (vec S r s) (S.edges.length + i) v = .ok (vec S r fun b => if b = o then v else s b) := by
  have hi : i < (S.depot 0).length := (List.getElem?_eq_some_iff.1 h).1
  rw [setEntry, if_pos (by rw [vec_length]; omega)]
  unfold vec
  rw [List.set_append_right _ _ (by simp), ← map_set_update hn s h]
  simp

theorem zeros_vec : zeros (S.edges.length + (S.depot 0).length) = vec S (fun _ => 0) fun _ => 0 := by
  unfold zeros vec
  rw [List.map_const', List.map_const', List.replicate_append_replicate]

theorem totalRow_vec : totalRow S.edges.length (S.edges.length + (S.depot 0).length) =
    vec S (fun _ => 0) fun _ => -1 := by
  unfold totalRow vec
  rw [List.map_const', List.map_const', Nat.add_sub_cancel_left]

theorem enumIdx_get (hn : (S.edges.map Prod.fst).Nodup) {ep : E × K × K} (h : ep ∈ S.edges) :
    ∃ i, itemsGet (enumIdx S) ep.1 = .ok i ∧ S.edges[i]? = some ep := by
  obtain ⟨i, hi, rfl⟩ := List.mem_iff_getElem.1 h
  refine ⟨i, ?_, List.getElem?_eq_getElem hi⟩
  refine (itemsGet_ok ?_ ?_).1
  · rw [enumIdx, List.zipIdx_map_fst]; exact hn
  · rw [enumIdx, List.mem_zipIdx_iff_getElem?]
    simp [hi]

theorem edges_get (hn : (S.edges.map Prod.fst).Nodup) {ep : E × K × K} (h : ep ∈ S.edges) :
    itemsGet S.edges ep.1 = .ok ep.2 := (itemsGet_ok hn h).1

theorem setSome_edge (hn : (S.edges.map Prod.fst).Nodup) (r : E × K × K → ℚ) (s : K → ℚ) {i : ℕ}
    {ep : E × K × K} (h : S.edges[i]? = some ep) (v : Option ℚ) :
    setSome (vec S r s) i v = .ok (vec S (fun b => if b = ep then v.getD (r b) else r b) s) := by
  cases v with
  | none =>
    rw [setSome]
    congr 1
    exact vec_congr (fun b _ => by simp) fun _ _ => rfl
  | some v => rw [setSome, setEntry_edge hn r s h]; rfl

theorem fillAll_ok (hn : (S.edges.map Prod.fst).Nodup) (coef : K × K → Option ℚ) (r : E × K × K → ℚ)
    (s : K → ℚ) : fillAll (enumIdx S) coef S.edges (vec S r s) =
      .ok (vec S (fun ep => (coef ep.2).getD (r ep)) s) := by
  have main : ∀ (L : List (E × K × K)) (r : E × K × K → ℚ), (∀ ep ∈ L, ep ∈ S.edges) →
      fillAll (enumIdx S) coef L (vec S r s) =
        .ok (vec S (fun ep => if ep ∈ L then (coef ep.2).getD (r ep) else r ep) s) := by
    intro L
    induction L with
    | nil => intro r _; simp [fillAll]; rfl
    | cons a L ih =>
      intro r hL
      obtain ⟨i, h1, h2⟩ := enumIdx_get hn (hL a (by simp))
      have hstep : fillAll (enumIdx S) coef (a :: L) (vec S r s) =
          fillAll (enumIdx S) coef L
            (vec S (fun b => if b = a then (coef a.2).getD (r b) else r b) s) := by
        conv_lhs => unfold fillAll
        rw [List.foldlM_cons, h1, ok_bind, setSome_edge hn r s h2, ok_bind]
        rfl
      rw [hstep, ih _ fun ep h => hL ep (by simp [h])]
      congr 1
      refine vec_congr (fun ep _ => ?_) fun _ _ => rfl
      by_cases ha : ep = a
      · subst ha
        cases hc : coef ep.2 <;> simp
      · simp [ha]
  rw [main S.edges r fun _ h => h]
  congr 1
  exact vec_congr (fun ep h => by rw [if_pos h]) fun _ _ => rfl

theorem fillSub_ok (hn : (S.edges.map Prod.fst).Nodup) (coef : K × K → Option ℚ) {es : List E}
    (hes : ∀ e ∈ es, e ∈ S.edges.map Prod.fst) (r : E × K × K → ℚ) (s : K → ℚ) :
    fillSub S (enumIdx S) coef es (vec S r s) =
      .ok (vec S (fun ep => if ep.1 ∈ es then (coef ep.2).getD (r ep) else r ep) s) := by
  induction es generalizing r with
  | nil => simp [fillSub]; rfl
  | cons e es ih =>
    obtain ⟨a, ha, rfl⟩ := List.mem_map.1 (hes e (by simp))
    obtain ⟨i, h1, h2⟩ := enumIdx_get hn ha
    have hstep : fillSub S (enumIdx S) coef (a.1 :: es) (vec S r s) =
        fillSub S (enumIdx S) coef es
          (vec S (fun b => if b = a then (coef a.2).getD (r b) else r b) s) := by
      conv_lhs => unfold fillSub
      rw [List.foldlM_cons, edges_get hn ha, ok_bind, h1, ok_bind, setSome_edge hn r s h2, ok_bind]
      rfl
    rw [hstep, ih fun e h => hes e (by simp [h])]
    congr 1
    refine vec_congr (fun ep hep => ?_) fun _ _ => rfl
    by_cases hea : ep = a
    · subst hea
      cases hc : coef ep.2 <;> simp
    · have : ep.1 ≠ a.1 := fun h => hea (by
        have h3 := edges_get hn hep
        rw [h, edges_get hn ha] at h3
        exact Prod.ext h (by injection h3 with h3; exact h3.symm))
      simp [hea, this]

/-! ### Rows -/

theorem foldlM_append {A B : Type} {f : List B → A → Except Err (List B)} {g : A → List B} {l : List A}
    (h : ∀ rows, ∀ a ∈ l, f rows a = .ok (rows ++ g a)) (rows : List B) :
    l.foldlM f rows = .ok (rows ++ l.flatMap g) := by
  induction l generalizing rows with
  | nil => simp; rfl
  | cons a l ih =>
    rw [List.foldlM_cons, h rows a (by simp), ok_bind, ih fun rows b hb => h rows b (by simp [hb])]
    simp

def nodeRow (S : PipeSys E K) (o : K) : LinRow :=
  (vec S (fun ep => (coefOut o ep.2).getD 0) (fun b => if b = o then -1 else 0), 0, 0)

def throughRow (S : PipeSys E K) (m : ℕ) (v : K) : LinRow :=
  (vec S (fun ep => if ep.1 ∈ S.subEdges.getD m [] then (coefNet v ep.2).getD 0 else 0) fun _ => 0, 0, 0)

def arriveRow (S : PipeSys E K) (m : ℕ) : LinRow :=
  (vec S (fun ep => if ep.1 ∈ S.subEdges.getD m [] ∧ ep.2.2 ∈ S.depot (m + 1) then 1 else 0)
    fun _ => -1, 0, 0)

def stopRow (S : PipeSys E K) (v : K) : LinRow :=
  (vec S (fun ep => (coefNet v ep.2).getD 0) fun _ => 0, 0, 0)

def capRow (S : PipeSys E K) (cap : E × K × K → ℚ) (ep : E × K × K) : LinRow :=
  (vec S (fun b => if b = ep then 1 else 0) fun _ => 0, 0, cap ep)

def subRows (S : PipeSys E K) (m : ℕ) : List LinRow :=
  ((S.subNodes.getD m []).filter fun v => decide (v ∉ S.depot m ∧ v ∉ S.depot (m + 1))).map
    (throughRow S m) ++ [arriveRow S m]

def allRows (S : PipeSys E K) (cap : E × K × K → ℚ) : List LinRow :=
  (S.depot 0).map (nodeRow S) ++ (List.range S.subNodes.length).flatMap (subRows S) ++
    ((List.range S.subNodes.length).drop 1).flatMap (fun m => (S.depot m).map (stopRow S)) ++
    S.edges.map (capRow S cap)

theorem flatMap_singleton' {A B : Type} (l : List A) (g : A → B) :
    (l.flatMap fun a => [g a]) = l.map g := by
  induction l with
  | nil => rfl
  | cons a l ih => simp [ih]

theorem last_idx {l : List K} (hn : l.Nodup) {o : K} (ho : o ∈ l) :
    l[l.length - 1 - l.reverse.idxOf o]? = some o := by
  have h1 : l.reverse.idxOf o < l.reverse.length := List.idxOf_lt_length_iff.2 (by simpa using ho)
  have h2 : l.reverse[l.reverse.idxOf o]? = some o := by
    rw [List.getElem?_eq_getElem h1, List.getElem_idxOf h1]
  rw [List.getElem?_reverse (by simpa using h1)] at h2
  exact h2

theorem doNode_ok (h : PipesOK S compOf vs) (rows : List LinRow) :
    doNode S (enumIdx S) (S.depot 0) rows = .ok (rows ++ (S.depot 0).map (nodeRow S)) := by
  unfold doNode
  rw [foldlM_append (g := fun o => [nodeRow S o]), flatMap_singleton']
  intro rows o ho
  rw [zeros_vec, setEntry_origin h.origins _ _ (last_idx h.origins ho), ok_bind,
    fillAll_ok h.nodup, ok_bind]
  rfl

theorem depot_get (h : PipesOK S compOf vs) {m : ℕ} (hm : m ≤ S.subNodes.length) :
    pyGet S.depots m = .ok (S.depot m) := pyGet_lt (by rw [h.depots]; omega) []

theorem subEdges_get (h : PipesOK S compOf vs) {m : ℕ} (hm : m < S.subNodes.length) :
    pyGet S.subEdges m = .ok (S.subEdges.getD m []) := pyGet_lt (hm.trans_le h.subs) []

theorem subEdges_mem (h : PipesOK S compOf vs) {m : ℕ} (hm : m < S.subNodes.length) :
    ∀ e ∈ S.subEdges.getD m [], e ∈ S.edges.map Prod.fst := by
  refine h.arcs _ ?_
  have := hm.trans_le h.subs
  simp [this]

theorem doSub1_ok (h : PipesOK S compOf vs) {m : ℕ} (hm : m < S.subNodes.length)
    (rows : List LinRow) :
    doSub1 S (enumIdx S) (S.edges.length + (S.depot 0).length) rows m =
      .ok (rows ++ subRows S m) := by
  have hes := subEdges_mem h hm
  simp only [doSub1]
  rw [depot_get h hm.le, ok_bind, depot_get h (show m + 1 ≤ _ from hm), ok_bind, pyGet_lt hm [], ok_bind]
  have h1 : ∀ rows, (S.subNodes.getD m []).foldlM
      (subNode S (enumIdx S) (S.edges.length + (S.depot 0).length) m (S.depot m) (S.depot (m + 1))) rows
      = .ok (rows ++ ((S.subNodes.getD m []).filter fun v =>
        decide (v ∉ S.depot m ∧ v ∉ S.depot (m + 1))).map (throughRow S m)) := by
    intro rows
    rw [foldlM_append (g := fun v => if v ∉ S.depot m ∧ v ∉ S.depot (m + 1) then [throughRow S m v]
      else [])]
    · congr 2
      generalize S.subNodes.getD m [] = l
      induction l with
      | nil => rfl
      | cons v l ih =>
        rw [List.flatMap_cons, ih, List.filter_cons]
        by_cases hv : v ∉ S.depot m ∧ v ∉ S.depot (m + 1)
        · rw [if_pos hv, if_pos (by simpa using hv)]; rfl
        · rw [if_neg hv, if_neg (by simpa using hv)]; rfl
    · intro rows v _
      unfold subNode
      by_cases hv : v ∉ S.depot m ∧ v ∉ S.depot (m + 1)
      · rw [if_pos hv, if_pos hv, subEdges_get h hm, ok_bind, zeros_vec, fillSub_ok h.nodup _ hes, ok_bind]
        rfl
      · rw [if_neg hv, if_neg hv]; simp; rfl
  have h2 : ∀ (now : List K) (r : E × K × K → ℚ) (s : K → ℚ), now.foldlM (fun row v => do
      let es ← pyGet S.subEdges m
      fillSub S (enumIdx S) (coefIn v) es row) (vec S r s) =
      .ok (vec S (fun ep => if ep.1 ∈ S.subEdges.getD m [] ∧ ep.2.2 ∈ now then 1 else r ep) s) := by
    intro now
    induction now with
    | nil => intro r s; simp; rfl
    | cons v now ih =>
      intro r s
      have hs : (do
          let es ← pyGet S.subEdges m
          fillSub S (enumIdx S) (coefIn v) es (vec S r s)) = .ok (vec S (fun ep =>
            if ep.1 ∈ S.subEdges.getD m [] then (coefIn v ep.2).getD (r ep) else r ep) s) := by
        rw [subEdges_get h hm, ok_bind, fillSub_ok h.nodup _ hes]
      rw [List.foldlM_cons, hs, ok_bind, ih]
      congr 1
      refine vec_congr (fun ep _ => ?_) fun _ _ => rfl
      rw [coefIn]
      by_cases he : ep.1 ∈ S.subEdges.getD m []
      · by_cases hv' : ep.2.2 ∈ now
        · rw [if_pos ⟨he, hv'⟩, if_pos ⟨he, List.mem_cons_of_mem _ hv'⟩]
        · rw [if_neg (show ¬ (_ ∧ _) from fun h => hv' h.2), if_pos he]
          by_cases hv : ep.2.2 = v
          · rw [if_pos hv, if_pos ⟨he, by simp [hv]⟩]; rfl
          · rw [if_neg hv, if_neg (show ¬ (_ ∧ _) from fun h => by
              rcases List.mem_cons.1 h.2 with h | h
              exacts [hv h, hv' h])]
            rfl
      · rw [if_neg (show ¬ (_ ∧ _) from fun h => he h.1), if_neg he,
          if_neg (show ¬ (_ ∧ _) from fun h => he h.1)]
  rw [h1, ok_bind, totalRow_vec, h2, ok_bind]
  simp only [subRows, arriveRow, List.append_assoc]
  rfl

theorem rows_ok (h : PipesOK S compOf vs) {x : K → ℕ} (hx : InSpace vs x)
    (lib : List ℚ → List LinRow → MilpRes) :
    runPipesFun lib S (enumIdx S) (compsOf vs x) =
      .ok (lib (vec S (fun _ => 0) fun _ => -1) (allRows S (pipeCap S compOf x))) := by
  have hinc : ∀ rows, doIncoming S (enumIdx S) (S.edges.length + (S.depot 0).length) rows =
      .ok (rows ++ ((List.range S.subNodes.length).drop 1).flatMap
        fun m => (S.depot m).map (stopRow S)) := by
    intro rows
    unfold doIncoming
    rw [foldlM_append]
    intro rows m hm
    have hm : m < S.subNodes.length := List.mem_range.1 (List.mem_of_mem_drop hm)
    rw [depot_get h hm.le, ok_bind, foldlM_append (g := fun v => [stopRow S v]), flatMap_singleton']
    intro rows v _
    rw [zeros_vec, fillAll_ok h.nodup, ok_bind]
    rfl
  have hcap : ∀ ep ∈ S.edges, arcCap S (compsOf vs x) ep = .ok (pipeCap S compOf x ep) := by
    intro ep hep
    obtain ⟨v, h1, h2, -, -⟩ := h.values ep hep
    have e1 : itemsGet S.e2c ep.1 = .ok (compOf ep.1) := by simp [itemsGet, dictGet, h.comp ep hep]
    have e2 : itemsGet S.varis (compOf ep.1) = .ok v := by simp [itemsGet, dictGet, h1]
    have hlt : x (compOf ep.1) < v.values.length := hx _ h2
    have e3 : pyGet v.values (x (compOf ep.1)) = .ok (capAt S.varis (compOf ep.1) (x (compOf ep.1))) := by
      simp [pyGet, capAt, h1, hlt]
    simp only [arcCap]
    rw [e1, ok_bind, e2, ok_bind, itemsGet_compsOf x (List.mem_map_of_mem (f := Prod.fst) h2), ok_bind,
      e3, ok_bind, itemsGet_compsOf x (h.ends ep hep).1, ok_bind]
    by_cases hs : x ep.2.1 = 0
    · rw [if_pos hs, pipeCap, if_pos (.inl hs)]; rfl
    · rw [if_neg hs, itemsGet_compsOf x (h.ends ep hep).2, ok_bind]
      by_cases hd : x ep.2.2 = 0
      · rw [if_pos hd, pipeCap, if_pos (.inr hd)]; rfl
      · rw [if_neg hd, pipeCap, if_neg (by simp [hs, hd])]; rfl
  have hcapr : ∀ rows, doCapacity S (enumIdx S) (compsOf vs x) (S.edges.length + (S.depot 0).length) rows =
      .ok (rows ++ S.edges.map (capRow S (pipeCap S compOf x))) := by
    intro rows
    unfold doCapacity
    rw [foldlM_append (g := fun ep => [capRow S (pipeCap S compOf x) ep]), flatMap_singleton']
    intro rows ep hep
    obtain ⟨i, h1, h2⟩ := enumIdx_get h.nodup hep
    rw [hcap ep hep, ok_bind, h1, ok_bind, zeros_vec, setEntry_edge h.nodup _ _ h2, ok_bind]
    rfl
  have hsub : ∀ rows, doSub S (enumIdx S) (S.edges.length + (S.depot 0).length) rows =
      .ok (rows ++ (List.range S.subNodes.length).flatMap (subRows S)) := by
    intro rows
    unfold doSub
    rw [foldlM_append]
    intro rows m hm
    exact doSub1_ok h (List.mem_range.1 hm) rows
  simp only [runPipesFun]
  rw [depot_get h (Nat.zero_le _), ok_bind, doNode_ok h, ok_bind, hsub, ok_bind, hinc, ok_bind, hcapr,
    ok_bind, totalRow_vec]
  rfl

/-! ### Feasible points are flows -/

/-- A whole point. -/
def point (S : PipeSys E K) (f : E → ℕ) (u : K → ℕ) : List ℚ :=
  vec S (fun ep => (f ep.1 : ℚ)) fun o => (u o : ℚ)

theorem sum_map_zero {A : Type} (l : List A) (f : A → ℚ) : (l.map fun a => 0 * f a).sum = 0 := by
  induction l with
  | nil => rfl
  | cons a l ih => rw [List.map_cons, List.sum_cons, ih]; simp

theorem sum_ind {A : Type} (l : List A) (p : A → Prop) [DecidablePred p] (f : A → ℕ) :
    (l.map fun a => (if p a then 1 else 0) * (f a : ℚ)).sum =
      (((l.filter fun a => decide (p a)).map f).sum : ℕ) := by
  induction l with
  | nil => simp
  | cons a l ih =>
    rw [List.map_cons, List.sum_cons, ih, List.filter_cons]
    by_cases h : p a <;> simp [h]

theorem sum_net (l : List (E × K × K)) (hl : ∀ ep ∈ l, ep.2.1 ≠ ep.2.2) (es : E → Prop) [DecidablePred es]
    (f : E → ℕ) (n : K) :
    (l.map fun ep => (if es ep.1 then (coefNet n ep.2).getD 0 else 0) * (f ep.1 : ℚ)).sum =
      (outOver (l.filter fun ep => decide (es ep.1)) f n : ℚ) -
        (inOver (l.filter fun ep => decide (es ep.1)) f n : ℚ) := by
  unfold outOver inOver
  induction l with
  | nil => simp
  | cons a l ih =>
    rw [List.map_cons, List.sum_cons, ih fun ep h => hl ep (by simp [h]), List.filter_cons]
    have ha := hl a (by simp)
    by_cases he : es a.1
    · simp only [he, if_true, decide_true, List.filter_cons]
      by_cases h1 : a.2.1 = n
      · have h2 : a.2.2 ≠ n := fun h => ha (h1.trans h.symm)
        simp [coefNet, h1, h2]; ring
      · by_cases h2 : a.2.2 = n
        · simp [coefNet, h1, h2]; ring
        · simp [coefNet, h1, h2]
    · simp [he]

theorem sum_origin {l : List K} (hn : l.Nodup) {o : K} (ho : o ∈ l) (u : K → ℚ) :
    (l.map fun b => (if b = o then (-1 : ℚ) else 0) * u b).sum = - u o := by
  induction l with
  | nil => cases ho
  | cons a l ih =>
    rw [List.nodup_cons] at hn
    rw [List.map_cons, List.sum_cons]
    by_cases ha : a = o
    · subst ha
      have : (l.map fun b => (if b = a then (-1 : ℚ) else 0) * u b) = l.map fun b => 0 * u b :=
        List.map_congr_left fun b hb => by rw [if_neg (show ¬ (b = a) from fun h => hn.1 (h ▸ hb))]
      rw [this, sum_map_zero]; simp
    · rcases List.mem_cons.1 ho with h | h
      · exact absurd h.symm ha
      · rw [ih hn.2 h]; simp [ha]

theorem sum_neg_one (l : List K) (u : K → ℕ) :
    (l.map fun b => (-1 : ℚ) * (u b : ℚ)).sum = - (((l.map u).sum : ℕ) : ℚ) := by
  induction l with
  | nil => simp
  | cons a l ih => rw [List.map_cons, List.sum_cons, ih]; simp; ring

theorem sum_one {l : List (E × K × K)} (hn : l.Nodup) {ep : E × K × K} (h : ep ∈ l) (f : E × K × K → ℚ) :
    (l.map fun b => (if b = ep then (1 : ℚ) else 0) * f b).sum = f ep := by
  induction l with
  | nil => cases h
  | cons a l ih =>
    rw [List.nodup_cons] at hn
    rw [List.map_cons, List.sum_cons]
    by_cases ha : a = ep
    · subst ha
      have : (l.map fun b => (if b = a then (1 : ℚ) else 0) * f b) = l.map fun b => 0 * f b :=
        List.map_congr_left fun b hb => by rw [if_neg (show ¬ (b = a) from fun h => hn.1 (h ▸ hb))]
      rw [this, sum_map_zero]; simp
    · rcases List.mem_cons.1 h with h' | h'
      · exact absurd h'.symm ha
      · rw [ih hn.2 h']; simp [ha]

theorem cast_sub_eq {a b : ℕ} : ((0 : ℚ) ≤ (a : ℚ) - b ∧ (a : ℚ) - b ≤ 0) ↔ a = b := by
  constructor
  · rintro ⟨h1, h2⟩
    have : (a : ℚ) = b := le_antisymm (sub_nonpos.1 h2) (sub_nonneg.1 h1)
    exact_mod_cast this
  · rintro rfl; simp

/-- The constraints are those of a pipe flow. -/
theorem feasible_iff (h : PipesOK S compOf vs) (cap : E × K × K → ℚ) (f : E → ℕ) (u : K → ℕ) :
    LinFeasible (vec S (fun _ => 0) fun _ => -1) (allRows S cap) (point S f u) ↔ PipeFlow S cap f u := by
  have dNode : ∀ o ∈ S.depot 0, dot (nodeRow S o).1 (point S f u) = (outOver S.edges f o : ℚ) - u o := by
    intro o ho
    rw [nodeRow, point, dot_vec, sum_origin h.origins ho, sub_eq_add_neg, outOver, ← sum_ind]
    congr 2
    refine List.map_congr_left fun ep _ => ?_
    by_cases he : ep.2.1 = o <;> simp [coefOut, he]
  have dThrough : ∀ m v, dot (throughRow S m v).1 (point S f u) =
      (outOver (S.sub m) f v : ℚ) - inOver (S.sub m) f v := by
    intro m v
    rw [throughRow, point, dot_vec, sum_map_zero, add_zero]
    exact sum_net S.edges h.loops (fun e => e ∈ S.subEdges.getD m []) f v
  have dArrive : ∀ m, dot (arriveRow S m).1 (point S f u) =
      (((((S.sub m).filter fun ep => decide (ep.2.2 ∈ S.depot (m + 1))).map fun ep => f ep.1).sum : ℕ) : ℚ)
        - (((S.depot 0).map u).sum : ℕ) := by
    intro m
    rw [arriveRow, point, dot_vec, sum_neg_one, sub_eq_add_neg,
      sum_ind S.edges (fun ep => ep.1 ∈ S.subEdges.getD m [] ∧ ep.2.2 ∈ S.depot (m + 1))
        fun ep => f ep.1, PipeSys.sub, List.filter_filter]
    congr 4
    refine List.filter_congr fun ep _ => ?_
    rw [Bool.decide_and, Bool.and_comm]
  have dStop : ∀ v, dot (stopRow S v).1 (point S f u) =
      (outOver S.edges f v : ℚ) - inOver S.edges f v := by
    intro v
    rw [stopRow, point, dot_vec, sum_map_zero, add_zero]
    have := sum_net S.edges h.loops (fun _ => True) f v
    simpa using this
  have dCap : ∀ ep ∈ S.edges, dot (capRow S cap ep).1 (point S f u) = (f ep.1 : ℚ) := by
    intro ep hep
    rw [capRow, point, dot_vec, sum_map_zero, add_zero]
    exact sum_one (nodup_of_fst h.nodup) hep fun b => (f b.1 : ℚ)
  constructor
  · intro hf
    refine ⟨fun ep hep => ?_, fun o ho => ?_, fun m n hn h1 h2 => ?_, fun m hm => ?_,
      fun m h1 hm n hn => ?_⟩
    · have := (hf.rows (capRow S cap ep) (List.mem_append_right _ (List.mem_map_of_mem hep))).2
      rwa [dCap ep hep] at this
    · have := hf.rows (nodeRow S o) (by
        simp only [allRows, List.mem_append]
        exact .inl (.inl (.inl (List.mem_map_of_mem ho))))
      rw [dNode o ho] at this
      exact cast_sub_eq.1 this
    · have hm : m < S.subNodes.length := by
        by_contra hm
        simp [List.getElem?_eq_none (not_lt.1 hm)] at hn
      have := hf.rows (throughRow S m n) (by
        simp only [allRows, List.mem_append, List.mem_flatMap]
        refine .inl (.inl (.inr ⟨m, List.mem_range.2 hm, ?_⟩))
        refine List.mem_append_left _ (List.mem_map_of_mem (List.mem_filter.2 ⟨hn, ?_⟩))
        simp [h1, h2])
      rw [dThrough] at this
      exact cast_sub_eq.1 this
    · have := hf.rows (arriveRow S m) (by
        simp only [allRows, List.mem_append, List.mem_flatMap]
        exact .inl (.inl (.inr ⟨m, List.mem_range.2 hm, List.mem_append_right _ (by simp)⟩)))
      rw [dArrive] at this
      exact cast_sub_eq.1 this
    · have := hf.rows (stopRow S n) (by
        simp only [allRows, List.mem_append, List.mem_flatMap]
        refine .inl (.inr ⟨m, ?_, List.mem_map_of_mem hn⟩)
        rw [List.mem_iff_getElem]
        refine ⟨m - 1, by simp; omega, by simp; omega⟩)
      rw [dStop] at this
      exact cast_sub_eq.1 this
  · intro hp
    refine ⟨by rw [point, vec_length, vec_length], ?_, ?_⟩
    · intro v hv
      rcases List.mem_append.1 hv with hv | hv
      · obtain ⟨ep, -, rfl⟩ := List.mem_map.1 hv; exact ⟨_, rfl⟩
      · obtain ⟨o, -, rfl⟩ := List.mem_map.1 hv; exact ⟨_, rfl⟩
    · intro r hr
      simp only [allRows, List.mem_append, List.mem_flatMap, List.mem_map] at hr
      rcases hr with ((⟨o, ho, rfl⟩ | ⟨m, hm, hr⟩) | ⟨m, hm, v, hv, rfl⟩) | ⟨ep, hep, rfl⟩
      · rw [dNode o ho]; exact cast_sub_eq.2 (hp.supply o ho)
      · rw [subRows, List.mem_append, List.mem_map, List.mem_singleton] at hr
        rcases hr with ⟨v, hv, rfl⟩ | rfl
        · obtain ⟨hv, hv'⟩ := List.mem_filter.1 hv
          have hv' : v ∉ S.depot m ∧ v ∉ S.depot (m + 1) := by simpa using hv'
          rw [dThrough]; exact cast_sub_eq.2 (hp.through m v hv hv'.1 hv'.2)
        · rw [dArrive]; exact cast_sub_eq.2 (hp.arrive m (List.mem_range.1 hm))
      · have hm2 : m < S.subNodes.length := List.mem_range.1 (List.mem_of_mem_drop hm)
        have hm1 : 1 ≤ m := by
          obtain ⟨i, hi, rfl⟩ := List.mem_iff_getElem.1 hm
          simp
        rw [dStop]; exact cast_sub_eq.2 (hp.stop m hm1 hm2 v hv)
      · rw [dCap ep hep]
        exact ⟨by simp [capRow], hp.cap ep hep⟩

/-- Every whole point of the right length comes from flows and supplies. -/
theorem exists_point (h : PipesOK S compOf vs) {x : List ℚ}
    (hl : x.length = S.edges.length + (S.depot 0).length) (hw : ∀ v ∈ x, ∃ n : ℕ, v = n) :
    ∃ f u, x = point S f u := by
  have key : ∀ {A : Type} [DecidableEq A] (l : List A), l.Nodup → ∀ y : List ℚ, y.length = l.length →
      (∀ v ∈ y, ∃ n : ℕ, v = n) → ∃ f : A → ℕ, y = l.map fun a => (f a : ℚ) := by
    intro A _ l
    induction l with
    | nil => intro _ y hy _; exact ⟨fun _ => 0, by simpa using hy⟩
    | cons a l ih =>
      intro hn y hy hw
      rw [List.nodup_cons] at hn
      cases y with
      | nil => simp at hy
      | cons v y =>
        obtain ⟨f, hf⟩ := ih hn.2 y (by simpa using hy) fun w hw' => hw w (by simp [hw'])
        obtain ⟨n, hv⟩ := hw v (by simp)
        refine ⟨fun b => if b = a then n else f b, ?_⟩
        rw [List.map_cons]
        congr 1
        · simp [hv]
        · rw [hf]
          refine List.map_congr_left fun b hb => ?_
          have : b ≠ a := fun hh => hn.1 (hh ▸ hb)
          simp [this]
  obtain ⟨f, hf⟩ := key (S.edges.map Prod.fst) h.nodup (x.take S.edges.length) (by simp; omega)
    fun v hv => hw v (List.mem_of_mem_take hv)
  obtain ⟨u, hu⟩ := key (S.depot 0) h.origins (x.drop S.edges.length) (by simp; omega)
    fun v hv => hw v (List.mem_of_mem_drop hv)
  refine ⟨f, u, ?_⟩
  have hf' : S.edges.map (fun ep => (f ep.1 : ℚ)) = x.take S.edges.length := by
    rw [hf, List.map_map]; rfl
  rw [point, vec, ← hu, hf', List.take_append_drop]

theorem dot_cost (f : E → ℕ) (u : K → ℕ) : dot (vec S (fun _ => 0) fun _ => -1) (point S f u) =
    - (((S.depot 0).map u).sum : ℕ) := by
  rw [point, dot_vec, sum_map_zero, zero_add, sum_neg_one]

end

end BNS
