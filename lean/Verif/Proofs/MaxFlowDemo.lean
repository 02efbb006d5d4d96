import Verif.Proofs.FlowDir
import Verif.Props.Flow

/-!
# Lemmas on the system function of the max_flow demo
-/

set_option linter.unusedSectionVars false

namespace BNS

variable {K N : Type} [DecidableEq K] [DecidableEq N]
variable {bi : Bool} {vs : List (K × ℕ)} {edges : List (K × N × N)} {ends : K → N × N}
variable {varis : List (K × Variable K)} {o d newT : N}

theorem DirNetOK.dir (h : DirNetOK bi vs ends varis o d newT) :
    DNetOK (vs.map Prod.fst) ends o d newT where
  single := by
    rw [List.pairwise_map]
    exact h.single.imp fun h => h.1
  fresh := by
    intro k hk
    obtain ⟨kn, hkn, rfl⟩ := List.mem_map.1 hk
    exact h.fresh kn hkn
  origin := by
    obtain ⟨kn, hkn, ho⟩ := h.origin
    exact ⟨kn.1, List.mem_map_of_mem hkn, ho⟩
  od := h.od
  dest := h.dest

theorem DirNetOK.und (h : DirNetOK true vs ends varis o d newT) :
    KNetOK (vs.map Prod.fst) ends o d newT where
  single := by
    unfold SingleK
    rw [List.pairwise_map]
    exact h.single.imp fun h hh => hh.elim h.1 (h.2 rfl)
  fresh := h.dir.fresh
  origin := h.dir.origin
  od := h.od
  dest := h.dest

theorem DirNetOK.capNonneg (h : DirNetOK bi vs ends varis o d newT) {k : K}
    (hk : k ∈ vs.map Prod.fst) (s : ℕ) : 0 ≤ capAt varis k s := by
  obtain ⟨kn, hkn, rfl⟩ := List.mem_map.1 hk
  obtain ⟨v, hv, -, h0, -⟩ := h.values kn hkn
  by_cases hne : v.values = []
  · simp [capAt, hv, hne]
  · exact h0 _ (capAt_mem hv hne s)

theorem DirNetOK.capMono (h : DirNetOK bi vs ends varis o d newT) {k : K}
    (hk : k ∈ vs.map Prod.fst) {a b : ℕ} (hab : a ≤ b) : capAt varis k a ≤ capAt varis k b := by
  obtain ⟨kn, hkn, rfl⟩ := List.mem_map.1 hk
  obtain ⟨v, hv, -, -, hp⟩ := h.values kn hkn
  exact capAt_mono_of hv hp hab

/-- What the flow `g` makes a component carry. -/
def carried (bi : Bool) (g : N → N → ℚ) (e : N × N) : ℚ :=
  if bi then g e.1 e.2 else max (g e.1 e.2) 0

theorem Fits.abs {a c : ℚ} (h : Fits bi a c) : |a| ≤ c := by
  cases bi with
  | true => exact h
  | false =>
    have h : 0 ≤ a ∧ a ≤ c := h
    rw [abs_of_nonneg h.1]
    exact h.2

theorem Fits.mono {a c c' : ℚ} (h : Fits bi a c) (hc : c ≤ c') : Fits bi a c' := by
  cases bi with
  | true => exact le_trans (show |a| ≤ c from h) hc
  | false =>
    have h : 0 ≤ a ∧ a ≤ c := h
    exact ⟨h.1, h.2.trans hc⟩

theorem Fits.zero {c : ℚ} (hc : 0 ≤ c) : Fits bi 0 c := by
  cases bi with
  | true => simpa [Fits] using hc
  | false => simpa [Fits] using hc

theorem Fits.of_abs {a c c' : ℚ} (h : Fits bi a c) (hc : |a| ≤ c') : Fits bi a c' := by
  cases bi with
  | true => exact hc
  | false =>
    have h : 0 ≤ a ∧ a ≤ c := h
    exact ⟨h.1, (le_abs_self a).trans hc⟩

theorem demo_supports (hN : DirNetOK bi vs ends varis o d newT) {cap : K → ℚ} {g : N → N → ℚ}
    {val target : ℚ} (hc : ∀ k ∈ vs.map Prod.fst, 0 ≤ cap k) (ht : 0 ≤ target)
    (hf : IsFlow (nodesOf (netGraph (vs.map Prod.fst) ends cap d newT target))
      (capIn bi (netGraph (vs.map Prod.fst) ends cap d newT target)) o newT g val) :
    (∀ k ∈ vs.map Prod.fst, Fits bi (carried bi g (ends k)) (cap k)) ∧
    (∀ n, n ≠ o → n ≠ d → netOut (vs.map Prod.fst) ends (fun k => carried bi g (ends k)) n = 0) ∧
    netOut (vs.map Prod.fst) ends (fun k => carried bi g (ends k)) o = val ∧ val ≤ target := by
  cases bi with
  | true => exact flow_supports hN.und hf
  | false => exact flow_supports_dir hN.dir hc hf ht

theorem demo_flow (hN : DirNetOK bi vs ends varis o d newT) {cap : K → ℚ} {φ : K → ℚ} {target : ℚ}
    (hcap : ∀ k ∈ vs.map Prod.fst, Fits bi (φ k) (cap k))
    (hcons : ∀ n, n ≠ o → n ≠ d → netOut (vs.map Prod.fst) ends φ n = 0)
    (h0 : 0 ≤ netOut (vs.map Prod.fst) ends φ o) (ht : netOut (vs.map Prod.fst) ends φ o ≤ target) :
    ∃ g, IsFlow (nodesOf (netGraph (vs.map Prod.fst) ends cap d newT target))
      (capIn bi (netGraph (vs.map Prod.fst) ends cap d newT target)) o newT g
      (netOut (vs.map Prod.fst) ends φ o) := by
  cases bi with
  | true => exact supports_flow hN.und hcap hcons h0 ht
  | false => exact supports_flow_dir hN.dir hcap hcons h0 ht

theorem addEdgeIn_new {G : CapGraph N} {u v : N}
    (h : ∀ e ∈ G, ¬ (e.1 = u ∧ e.2.1 = v) ∧ (bi = true → ¬ (e.1 = v ∧ e.2.1 = u))) (c : ℚ) :
    addEdgeIn bi G u v c = G ++ [(u, v, c)] := by
  cases bi with
  | true =>
    refine addEdge_new (fun e he hj => ?_) c
    rcases hj with hj | hj
    · exact (h e he).1 hj
    · exact (h e he).2 rfl hj
  | false =>
    unfold addEdgeIn
    rw [if_neg (by simp), if_neg]
    simp only [List.any_eq_true, decide_eq_true_eq, not_exists, not_and]
    intro e he h1 h2
    exact (h e he).1 ⟨h1, h2⟩

theorem demoEdge_ok (hN : DirNetOK bi vs ends varis o d newT) {x : K → ℕ} (hx : InSpace vs x)
    {kn : K × ℕ} (hk : kn ∈ vs) (G : CapGraph N) :
    demoEdge bi (compsOf vs x) varis G (kn.1, ends kn.1) =
      .ok (addEdgeIn bi G (ends kn.1).1 (ends kn.1).2 (capAt varis kn.1 (x kn.1))) := by
  obtain ⟨v, hv, hl, -, -⟩ := hN.values kn hk
  have h2 : itemsGet varis kn.1 = .ok v := by simp [itemsGet, dictGet, hv]
  have h1 : (compsOf vs x).lookup kn.1 = some (x kn.1) := by
    have : ∀ l : List (K × ℕ), kn ∈ l → (compsOf l x).lookup kn.1 = some (x kn.1) := by
      intro l
      induction l with
      | nil => intro h; cases h
      | cons a l ih =>
        intro h
        have hc : compsOf (a :: l) x = (a.1, x a.1) :: compsOf l x := rfl
        rw [hc, List.lookup_cons]
        by_cases ha : kn.1 = a.1
        · rw [ha]; simp
        · rw [show (kn.1 == a.1) = false by simpa using ha]
          rcases List.mem_cons.1 h with rfl | h
          · exact absurd rfl ha
          · exact ih h
    exact this vs hk
  have h1 : itemsGet (compsOf vs x) kn.1 = .ok (x kn.1) := by simp [itemsGet, dictGet, h1]
  have h3 := capAt_lt hv (s := x kn.1) (by rw [hl]; exact hx kn hk)
  simp only [demoEdge]
  rw [h2, ok_bind, h1, ok_bind, h3, ok_bind]
  rfl

theorem demoGraph_ok (hN : DirNetOK bi vs ends varis o d newT) {x : K → ℕ} (hx : InSpace vs x) :
    (vs.map fun kn => (kn.1, ends kn.1)).foldlM (demoEdge bi (compsOf vs x) varis) [] = .ok
      ((vs.map Prod.fst).map fun k => ((ends k).1, (ends k).2, capAt varis k (x k))) := by
  have main : ∀ (l : List (K × ℕ)) (G : CapGraph N), (∀ kn ∈ l, kn ∈ vs) →
      l.Pairwise (fun a b => ends a.1 ≠ ends b.1 ∧ (bi = true → ends a.1 ≠ (ends b.1).swap)) →
      (∀ kn ∈ l, ∀ e ∈ G, ¬ (e.1 = (ends kn.1).1 ∧ e.2.1 = (ends kn.1).2) ∧
        (bi = true → ¬ (e.1 = (ends kn.1).2 ∧ e.2.1 = (ends kn.1).1))) →
      (l.map fun kn => (kn.1, ends kn.1)).foldlM (demoEdge bi (compsOf vs x) varis) G = .ok
        (G ++ (l.map Prod.fst).map fun k => ((ends k).1, (ends k).2, capAt varis k (x k))) := by
    intro l
    induction l with
    | nil => intro G _ _ _; simp; rfl
    | cons kn l ih =>
      intro G hl hp hG
      rw [List.pairwise_cons] at hp
      rw [List.map_cons, List.foldlM_cons, demoEdge_ok hN hx (hl kn (by simp)), ok_bind,
        addEdgeIn_new (hG kn (by simp)), ih _ (fun k hk => hl k (by simp [hk])) hp.2]
      · simp
      · intro k hk e he
        rcases List.mem_append.1 he with he | he
        · exact hG k (by simp [hk]) e he
        · rw [List.mem_singleton.1 he]
          refine ⟨fun hh => (hp.1 k hk).1 (Prod.ext_iff.2 hh), fun hb hh =>
            (hp.1 k hk).2 hb (Prod.ext_iff.2 hh)⟩
  have := main vs [] (fun _ h => h) hN.single (by simp)
  simpa using this

theorem carried_report (g : N → N → ℚ) (ha : ∀ u v, g u v = - g v u) (e : N × N) :
    (if bi then max (max (g e.1 e.2) 0) (max (g e.2 e.1) 0) else max (g e.1 e.2) 0) =
      |carried bi g e| := by
  cases bi with
  | true =>
    simp only [if_true, carried]
    rw [ha e.2 e.1]
    exact max_parts _
  | false =>
    simp only [Bool.false_eq_true, if_false, carried]
    exact (abs_of_nonneg (le_max_right _ _)).symm

end BNS
