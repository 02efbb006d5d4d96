import Verif.Proofs.Conn
import Verif.Proofs.Files
import Verif.Props.Flow

/-!
# C87: connectivity of the routine demo

`networkx.maximum_flow` and `networkx.shortest_path` are parameters with the contracts `FlowLibOK`
(met by `bestFlowLib_ok`) and `WalkLibOK` (met by `bestWalkLib_ok`).
-/

set_option linter.unusedSectionVars false

namespace BNS

variable {K N : Type} [DecidableEq K] [DecidableEq N]
variable {vs : List (K × ℕ)} {ends : K → N × N} {o d : N}

open Classical in
/-- Some walk with the fewest nodes, where there is one. -/
noncomputable def bestWalkLib (G : CapGraph N) (s t : N) : Except Err (List N) :=
  if s ∈ nodesOf G ∧ t ∈ nodesOf G then
    if h : ∃ p, WalkIn G s t p ∧ ∀ q, WalkIn G s t q → p.length ≤ q.length then .ok h.choose
    else .error .noPath
  else .error .graph

/-- The contract of `shortest_path` can be met. -/
theorem bestWalkLib_ok : WalkLibOK (bestWalkLib : CapGraph N → N → N → Except Err (List N)) where
  least G s t hs ht h := by
    classical
    have h' : ∃ p, WalkIn G s t p ∧ ∀ q, WalkIn G s t q → p.length ≤ q.length := by
      have hex : ∃ n, ∃ p, WalkIn G s t p ∧ p.length = n := by
        obtain ⟨p, hp⟩ := h
        exact ⟨_, p, hp, rfl⟩
      obtain ⟨p, hp, hn⟩ := Nat.find_spec hex
      exact ⟨p, hp, fun q hq => hn ▸ Nat.find_min' hex ⟨q, hq, rfl⟩⟩
    refine ⟨h'.choose, ?_, h'.choose_spec⟩
    unfold bestWalkLib
    rw [if_pos ⟨hs, ht⟩, dif_pos h']
  noPath G s t hs ht h := by
    unfold bestWalkLib
    rw [if_pos ⟨hs, ht⟩, dif_neg]
    rintro ⟨p, hp, -⟩
    exact h ⟨p, hp⟩
  unknown G s t h := by
    unfold bestWalkLib
    rw [if_neg]
    rintro ⟨h1, h2⟩
    exact h.elim (· h1) (· h2)

/-- **C87.**  For every network, with or without parallel arcs, and different origin and destination:
`conn` returns without exception; the state is `'s'` exactly if working arcs connect the two nodes.
The rule then names arcs of the network with state 1, no more than any connection by working arcs has;
every component vector that satisfies it connects the two nodes.  In state `'f'` there is no rule and
the value is 0. -/
theorem C87_conn {lib : FlowLib N} (hlib : FlowLibOK lib)
    {sp : CapGraph N → N → N → Except Err (List N)} (hsp : WalkLibOK sp)
    (hod : o ≠ d) (x : K → ℕ) :
    ∃ (val : ℚ) (st : St) (r : Option (Rule K)), connFun lib sp true (compsOf vs x) o d
        (vs.map fun kn => (kn.1, ends kn.1)) = .ok (val, st, r) ∧
      (st = .s ↔ LinkedBy vs ends o d x) ∧ (st = .f ↔ ¬ LinkedBy vs ends o d x) ∧
      (st = .f → val = 0 ∧ r = none) ∧
      (st = .s → 1 ≤ val ∧ ∃ rule, r = some rule ∧ rule ≠ [] ∧ RuleOK vs rule ∧
        (∀ kv ∈ rule, kv.2 = 1) ∧ (∀ y, AppliesS rule y → LinkedBy vs ends o d y) ∧
        ∀ q : List N, q.head? = some o → q.getLast? = some d → q.IsChain (UsableArc vs ends x) →
          rule.length + 1 ≤ q.length) := by
  obtain ⟨G, hU, hJ, ⟨val, g, p, ks, hL, hval, h2, h3, p2, p3, hks2, hrun⟩ | ⟨hL, hrun, -⟩⟩ :=
    connCore (vs := vs) (ends := ends) hlib hsp hod x
  · obtain ⟨r1, r2, r3⟩ := connRule_spec ks
    have hlen : ks.length + 1 = p.length := by
      have h5 := hks2.length_eq
      cases p with
      | nil => cases p2.1
      | cons a p =>
        simp only [List.tail_cons, List.length_zip, List.length_cons] at h5 ⊢
        omega
    refine ⟨val, .s, some (ks.foldl connInsert []), hrun, by simp [hL], by simp [hL], by simp,
      fun _ => ⟨hval, _, rfl, ?_, ⟨r1, ?_⟩, ?_, ?_, ?_⟩⟩
    · intro h0
      cases ks with
      | cons k ks' =>
        have : (k, 1) ∈ (k :: ks').foldl connInsert [] := (r2 k 1).2 ⟨by simp, rfl⟩
        rw [h0] at this
        cases this
      | nil =>
        have h1 : p.length = 1 := by simpa using hlen.symm
        obtain ⟨a, rfl⟩ := List.length_eq_one_iff.1 h1
        have ha := p2.1
        have hb := p2.2.1
        simp only [List.head?_cons, List.getLast?_singleton, Option.some.injEq] at ha hb
        exact hod (ha.symm.trans hb)
    · rintro ⟨k, i⟩ h
      obtain ⟨uv, huv, e, he, h4, h5⟩ := forall₂_mem_right hks2 ((r2 k i).1 h).1
      obtain ⟨kn, hkn, rfl⟩ := List.mem_map.1 he
      exact List.mem_map.2 ⟨kn, hkn, h4.symm⟩
    · rintro ⟨k, i⟩ h
      exact ((r2 k i).1 h).2
    · intro y hy
      refine chain_linked p2.1 p2.2.1 (chain_zip.2 fun uv huv => ?_)
      obtain ⟨k, hk, e, he, h4, h5⟩ := forall₂_mem_left hks2 huv
      obtain ⟨kn, hkn, rfl⟩ := List.mem_map.1 he
      refine ⟨kn, hkn, ?_, h5⟩
      have := hy (k, 1) ((r2 k 1).2 ⟨hk, rfl⟩)
      rw [h4] at this
      exact this
    · intro q q1 q2 q3
      have := p3 q ⟨q1, q2, by rw [hJ]; exact q3⟩
      omega
  · exact ⟨0, .f, none, hrun, by simp [hL], by simp [hL], fun _ => ⟨rfl, rfl⟩, by simp⟩

/-- **C87, monotone.** -/
theorem C87_monotone {x y : K → ℕ} (hxy : ∀ kn ∈ vs, x kn.1 ≤ y kn.1) (h : LinkedBy vs ends o d x) :
    LinkedBy vs ends o d y := by
  unfold LinkedBy at h ⊢
  induction h with
  | refl => exact .refl
  | tail _ h ih =>
    obtain ⟨kn, hkn, h1, h2⟩ := h
    exact ih.tail ⟨kn, hkn, h1.trans_le (hxy kn hkn), h2⟩

/-- **C87 without parallel arcs.**  The rule applies to the evaluated vector, and the value is the
greatest amount that can be sent when every working arc carries up to one unit.

Missing: parallel arcs, see `C87_not_parallel`. -/
theorem C87_rule_partial {lib : FlowLib N} (hlib : FlowLibOK lib)
    {sp : CapGraph N → N → N → Except Err (List N)} (hsp : WalkLibOK sp)
    (hp : NoParallelArcs vs ends) (hod : o ≠ d) {x : K → ℕ} {val : ℚ} {st : St} {r : Option (Rule K)}
    (hr : connFun lib sp true (compsOf vs x) o d (vs.map fun kn => (kn.1, ends kn.1)) =
      .ok (val, st, r)) :
    (∀ rule, r = some rule → AppliesS rule x) ∧
    Supports (vs.map Prod.fst) ends (unitCap x) o d val ∧
    ∀ F, Supports (vs.map Prod.fst) ends (unitCap x) o d F → F ≤ val := by
  obtain ⟨G, hU, hJ, ⟨val', g, p, ks, hL, hval, h2, h3, p2, p3, hks2, hrun⟩ | ⟨hL, hrun, h3⟩⟩ :=
    connCore (vs := vs) (ends := ends) hlib hsp hod x
  · rw [hrun] at hr
    cases hr
    obtain ⟨r1, r2, r3⟩ := connRule_spec ks
    refine ⟨?_, ?_, ?_⟩
    · intro rule hrule
      cases hrule
      rintro ⟨k, i⟩ hki
      obtain ⟨hk, rfl⟩ := (r2 k i).1 hki
      obtain ⟨uv, huv, e, he, h4, h5⟩ := forall₂_mem_right hks2 hk
      obtain ⟨kn, hkn, rfl⟩ := List.mem_map.1 he
      have h6 := chain_zip.1 p2.2.2 uv huv
      rw [hJ] at h6
      obtain ⟨kn', hkn', h7, h8⟩ := h6
      have : kn = kn' := by
        refine hp.eq_of hkn hkn' ?_
        obtain ⟨u, v⟩ := uv
        have h5 : ends kn.1 = (u, v) ∨ ends kn.1 = (v, u) := h5
        have h8 : ends kn'.1 = (u, v) ∨ ends kn'.1 = (v, u) := h8
        rcases h5 with h5 | h5 <;> rcases h8 with h8 | h8 <;> simp [h5, h8]
      subst this
      rw [h4]
      exact h7
    · obtain ⟨f1, f2, f3⟩ := flow_plain (single_filter hp) hU (joined_working hJ) h2
      exact working_supports f1 f2 f3
    · rintro F ⟨φ, c1, c2, c3⟩
      obtain ⟨g', hg'⟩ := plain_flow (o := o) (d := d) (single_filter hp) hU (joined_working hJ)
        (φ := φ) (working_cap c1) (fun n hn1 hn2 => (supports_working c1 n).trans (c2 n hn1 hn2))
      rw [supports_working c1] at hg'
      exact c3.trans (h3 _ _ hg')
  · rw [hrun] at hr
    cases hr
    refine ⟨fun rule h => (by cases h), ⟨fun _ => 0, fun k _ => ?_, fun n _ _ => netOut_zero _ _ n,
      (netOut_zero _ _ o).ge⟩, ?_⟩
    · rw [abs_zero]
      unfold unitCap
      split
      · exact zero_le_one
      · exact le_refl _
    · rintro F ⟨φ, c1, c2, c3⟩
      refine c3.trans ?_
      rcases h3 with ⟨-, -, h3⟩ | h3
      · obtain ⟨g', hg'⟩ := plain_flow (o := o) (d := d) (single_filter hp) hU (joined_working hJ)
          (φ := φ) (working_cap c1) (fun n hn1 hn2 => (supports_working c1 n).trans (c2 n hn1 hn2))
        rw [supports_working c1] at hg'
        exact h3 _ _ hg'
      · rw [← supports_working c1]
        refine (netOut_unreached (S := nodesOf G) (d := d) (fun k hk => ?_)
          (fun n hn1 hn2 => (supports_working c1 n).trans (c2 n hn1 hn2)) h3).le
        exact ⟨mem_nodes_joined.2 ⟨_, (joined_working hJ _ _).2 ⟨k, hk, .inl rfl⟩⟩,
          mem_nodes_joined.2 ⟨_, (joined_working hJ _ _).2 ⟨k, hk, .inr rfl⟩⟩⟩

/-- The hypotheses of `run` hold for `conn`. -/
theorem sysFun_demoConn {lib : FlowLib N} (hlib : FlowLibOK lib)
    {sp : CapGraph N → N → N → Except Err (List N)} (hsp : WalkLibOK sp)
    (hp : NoParallelArcs vs ends) (hod : o ≠ d)
    {Φ : (K → ℕ) → Bool} (hΦ : ∀ x, Φ x = true ↔ LinkedBy vs ends o d x) :
    SysOK vs Φ (connSysFun lib sp o d (vs.map fun kn => (kn.1, ends kn.1)) vs) ∧ Coherent vs Φ := by
  have key : ∀ x, let r := connSysFun lib sp o d (vs.map fun kn => (kn.1, ends kn.1)) vs x
      (r.st = .s ↔ Φ x = true) ∧ (r.st = .f ↔ Φ x = false) ∧ RuleOK vs r.min ∧
      (r.st = .s → AppliesS r.min x ∧ ValidS vs Φ r.min) ∧ (r.st = .f → r.min = []) := by
    intro x
    obtain ⟨val, st, r, h1, h2, h3, h4, h5⟩ := C87_conn (vs := vs) (ends := ends) hlib hsp hod x
    obtain ⟨h6, -⟩ := C87_rule_partial hlib hsp hp hod h1
    simp only [connSysFun, h1]
    rw [hΦ, ← Bool.not_eq_true, hΦ]
    by_cases hL : LinkedBy vs ends o d x
    · obtain ⟨-, rule, rfl, -, h7, -, h8, -⟩ := h5 (h2.2 hL)
      refine ⟨h2, h3, h7, fun hs => ⟨h6 rule rfl, fun y hy ha => ?_⟩, fun hf => absurd hL (h3.1 hf)⟩
      rw [hΦ]
      exact h8 y ha
    · obtain ⟨-, rfl⟩ := h4 (h3.2 hL)
      exact ⟨h2, h3, ⟨by simp, by simp⟩, fun hs => absurd (h2.1 hs) hL, fun _ => rfl⟩
  constructor
  · constructor
    · intro x hx
      obtain ⟨h1, h2, -⟩ := key x
      split
      · rename_i h; exact h1.2 h
      · rename_i h; exact h2.2 (by simpa using h)
    · intro x hx _
      exact (key x).2.2.1
    · intro x hx _ hs
      obtain ⟨h1, -, -, h4, -⟩ := key x
      exact (h4 (h1.2 hs)).symm
    · intro x hx hne hf
      obtain ⟨-, h2, -, -, h5⟩ := key x
      exact absurd (h5 (h2.2 hf)) hne
  · intro x y hxy hs
    rw [hΦ] at hs ⊢
    exact C87_monotone hxy hs

/-- **C87, end to end, partial.**  `run` with `conn` as its system function: the monitored bounds
contain, and with a sufficient budget both equal, the probability that working arcs do not connect the
two nodes. -/
theorem C87_reliability_partial {lib : FlowLib N} (hlib : FlowLibOK lib)
    {sp : CapGraph N → N → N → Except Err (List N)} (hsp : WalkLibOK sp) {c : RunCfg K}
    (hpar : NoParallelArcs c.vs ends) (hod : o ≠ d) [DecidablePred (LinkedBy c.vs ends o d)]
    (hvs : VarisOK c.vs) (hp : ProbOK c.vs c.probs)
    (hsf : c.sysFun = connSysFun lib sp o d (c.vs.map fun kn => (kn.1, ends kn.1)) c.vs) :
    (∀ st, run c { s := [], f := [] } none = .ok st → ∀ row ∈ st.mon,
      row.pfLow ≤ probOf c.vs c.probs (fun x => ¬ LinkedBy c.vs ends o d x) ∧
      probOf c.vs c.probs (fun x => ¬ LinkedBy c.vs ends o d x) ≤ row.pfUp) ∧
    (c.survFirst = true → (c.vs.map Prod.snd).prod < c.maxSf →
      2 * (c.vs.map Prod.snd).prod ≤ c.maxNb → c.pfBndWr = 0 → c.maxRules = none →
      ∃ st row, run c { s := [], f := [] } none = .ok st ∧ st.outFlag = some .complete ∧
        st.mon.getLast? = some row ∧
        row.pfLow = probOf c.vs c.probs (fun x => ¬ LinkedBy c.vs ends o d x) ∧
        row.pfUp = probOf c.vs c.probs (fun x => ¬ LinkedBy c.vs ends o d x)) := by
  have hs := sysFun_demoConn hlib hsp hpar hod (Φ := fun x => decide (LinkedBy c.vs ends o d x)) (by simp)
  rw [← hsf] at hs
  have hc : CfgOK c fun x => decide (LinkedBy c.vs ends o d x) := ⟨hvs, hs.2, hp, hs.1⟩
  constructor
  · intro st h
    have := (C27_bounds hc (Ex.start_empty c) h).1
    rw [pFail_decide] at this
    exact this
  · intro hfirst hmax hnb hw hmr
    obtain ⟨st, h1, h2⟩ := C29_completes hc hfirst hmax hnb hw hmr (Ex.start_empty c)
    obtain ⟨-, row, -, h3, -, h4, h5⟩ := C28_enough_branches_partial hc (Ex.start_empty c)
      (resume_none c _) hnb h1 h2
    rw [pFail_decide] at h4 h5
    exact ⟨st, row, h1, h2, h3, h4, h5⟩

/-- **Arcs given as tuples**: whenever the nodes are connected, `conn` raises `ValueError`, because no
tuple equals the list of two nodes; otherwise it returns what it returns for lists. -/
theorem C87_tuples_raise {lib : FlowLib N} (hlib : FlowLibOK lib)
    {sp : CapGraph N → N → N → Except Err (List N)} (hsp : WalkLibOK sp) (hod : o ≠ d) (x : K → ℕ) :
    connFun lib sp false (compsOf vs x) o d (vs.map fun kn => (kn.1, ends kn.1)) = .error .value ↔
      LinkedBy vs ends o d x := by
  obtain ⟨val, st, r, h1, h2, h3, h4, h5⟩ := C87_conn (vs := vs) (ends := ends) hlib hsp hod x
  by_cases hL : LinkedBy vs ends o d x
  · obtain ⟨-, rule, rfl, h6, -⟩ := h5 (h2.2 hL)
    exact ⟨fun _ => hL, fun _ => connFun_tuple h1 h6⟩
  · obtain ⟨-, rfl⟩ := h4 (h3.2 hL)
    rw [connFun_tuple_f h1]
    simp [hL]

/-- **Origin and destination the same node**, touched by a working arc: `networkx` raises. -/
theorem C87_same_node_raises {lib : FlowLib N} (hlib : FlowLibOK lib)
    {sp : CapGraph N → N → N → Except Err (List N)} {isList : Bool}
    (x : K → ℕ) (ho : ∃ v, UsableArc vs ends x o v) :
    connFun lib sp isList (compsOf vs x) o o (vs.map fun kn => (kn.1, ends kn.1)) = .error .graph := by
  obtain ⟨G, hG, hU, hJ⟩ := connGraph_ok (vs := vs) (ends := ends) (lookup_ends vs ends) x
  obtain ⟨v, hv⟩ := ho
  have hoG : o ∈ nodesOf G := mem_nodes_joined.2 ⟨v, (hJ _ _).2 hv⟩
  unfold connFun
  rw [hG, ok_bind, if_pos ⟨hoG, hoG⟩, hlib.raises _ _ _ (.inr (.inr rfl))]
  rfl

/-- **An arc missing from `arcs`** whose component works: `KeyError`. -/
theorem C87_missing_raises {lib : FlowLib N} {sp : CapGraph N → N → N → Except Err (List N)}
    {isList : Bool} {arcs : List (K × N × N)} (x : K → ℕ) {kn : K × ℕ} (hkn : kn ∈ vs)
    (hx : 0 < x kn.1) (hk : kn.1 ∉ arcs.map Prod.fst) :
    connFun lib sp isList (compsOf vs x) o d arcs = .error .key := by
  have main : ∀ (l : List (K × ℕ)) (G : CapGraph N), kn ∈ l →
      (compsOf l x).foldlM (connAddEdge arcs) G = .error .key := by
    intro l
    induction l with
    | nil => intro G h; cases h
    | cons a l ih =>
      intro G h
      show (connAddEdge arcs G (a.1, x a.1) >>= fun G' => (compsOf l x).foldlM (connAddEdge arcs) G') = _
      rcases List.mem_cons.1 h with rfl | h
      · unfold connAddEdge
        rw [if_pos hx]
        have : itemsGet arcs kn.1 = .error .key := itemsGet_none (lookup_absent hk)
        rw [this]
        rfl
      · cases hc : connAddEdge arcs G (a.1, x a.1) with
        | ok G' => rw [ok_bind]; exact ih G' h
        | error e =>
          rw [error_bind]
          unfold connAddEdge at hc
          split at hc
          · cases hg : itemsGet arcs a.1 with
            | ok v => rw [hg] at hc; cases hc
            | error e' =>
              rw [hg] at hc
              cases hc
              cases hlk : arcs.lookup a.1 with
              | some v => rw [itemsGet_some hlk] at hg; cases hg
              | none => rw [itemsGet_none hlk] at hg; cases hg; rfl
          · cases hc
  unfold connFun
  rw [main vs [] hkn]
  rfl

namespace ConnEx

/-- The network of the routine demo (batch.py:23-27). -/
def net : List (String × ℕ) := [("e1", 2), ("e2", 2), ("e3", 2), ("e4", 2), ("e5", 2)]

def netEnds : String → String × String
  | "e1" => ("n1", "n2")
  | "e2" => ("n1", "n3")
  | "e3" => ("n2", "n3")
  | "e4" => ("n2", "n4")
  | _ => ("n3", "n4")

/-- `e1`, `e3` and `e5` work. -/
def states : String → ℕ := fun k => if k = "e2" ∨ k = "e4" then 0 else 1

example : NoParallelArcs net netEnds := by unfold NoParallelArcs; decide
example : ("n1" : String) ≠ "n4" := by decide

/-- The probabilities of the demo (batch.py:30). -/
def probs : String → ℕ → ℚ
  | "e1", i => if i = 0 then 1 / 100 else 99 / 100
  | "e2", i => if i = 0 then 2 / 100 else 98 / 100
  | "e3", i => if i = 0 then 3 / 100 else 97 / 100
  | "e4", i => if i = 0 then 4 / 100 else 96 / 100
  | _, i => if i = 0 then 5 / 100 else 95 / 100

example : VarisOK net ∧ ProbOK net probs :=
  ⟨⟨by decide, by decide⟩, ⟨by decide +kernel, by decide +kernel⟩⟩

/-- `n1`–`n2`–`n3`–`n4`. -/
theorem linked : LinkedBy net netEnds "n1" "n4" states := by
  have h1 : UsableArc net netEnds states "n1" "n2" := ⟨("e1", 2), by decide, by decide, by decide⟩
  have h2 : UsableArc net netEnds states "n2" "n3" := ⟨("e3", 2), by decide, by decide, by decide⟩
  have h3 : UsableArc net netEnds states "n3" "n4" := ⟨("e5", 2), by decide, by decide, by decide⟩
  exact ((Relation.ReflTransGen.single h1).tail h2).tail h3

/-- The demo's call with these states: state `'s'`, whatever maximum flow and shortest path are
found, and a rule that holds for them. -/
example : ∃ val rule, connFun bestFlowLib bestWalkLib true (compsOf net states) "n1" "n4"
    (net.map fun kn => (kn.1, netEnds kn.1)) = .ok (val, .s, some rule) ∧ AppliesS rule states := by
  obtain ⟨val, st, r, h1, h2, -, -, h5⟩ := C87_conn (vs := net) (ends := netEnds) (o := "n1") (d := "n4")
    bestFlowLib_ok bestWalkLib_ok (by decide) states
  obtain ⟨-, rule, rfl, -⟩ := h5 (h2.2 linked)
  obtain rfl := h2.2 linked
  exact ⟨val, rule, h1, (C87_rule_partial bestFlowLib_ok bestWalkLib_ok
    (by unfold NoParallelArcs; decide) (by decide) h1).1 _ rfl⟩

/-- Two arcs between the same nodes, the first of them failed. -/
def vs2 : List (ℕ × ℕ) := [(0, 2), (1, 2)]

def x2 : ℕ → ℕ := fun k => k

end ConnEx

/-- **C87 does not extend to parallel arcs**: the state is right, but the rule names the first arc
between the two nodes, which has failed; it does not apply to the evaluated vector. -/
theorem C87_not_parallel {lib : FlowLib Bool} (hlib : FlowLibOK lib)
    {sp : CapGraph Bool → Bool → Bool → Except Err (List Bool)} (hsp : WalkLibOK sp) :
    ∃ val, connFun lib sp true (compsOf ConnEx.vs2 ConnEx.x2) false true
      (ConnEx.vs2.map fun kn => (kn.1, (false, true))) = .ok (val, .s, some [(0, 1)]) ∧
    ¬ AppliesS [((0 : ℕ), 1)] ConnEx.x2 := by
  obtain ⟨val, st, r, h1, h2, -, -, h5⟩ := C87_conn (vs := ConnEx.vs2) (ends := fun _ => (false, true))
    hlib hsp (o := false) (d := true) (by decide) ConnEx.x2
  have hL : LinkedBy ConnEx.vs2 (fun _ => (false, true)) false true ConnEx.x2 :=
    .single ⟨(1, 2), by decide, by decide, .inl rfl⟩
  obtain ⟨-, rule, rfl, h6, -, -, -, h7⟩ := h5 (h2.2 hL)
  obtain rfl := h2.2 hL
  refine ⟨val, ?_, by decide⟩
  rw [h1]
  unfold connFun at h1
  obtain ⟨G, hG, h1⟩ := bind_ok.1 h1
  obtain ⟨f, hf, h1⟩ := bind_ok.1 h1
  by_cases h0 : 0 < f
  · rw [if_pos h0] at h1
    obtain ⟨p, hp, h1⟩ := bind_ok.1 h1
    obtain ⟨ks, hks, h1⟩ := bind_ok.1 h1
    cases h1
    have hG' : G = [(false, true, 1)] := by
      cases hG
      rfl
    have hw : WalkIn G false true [false, true] := by
      refine ⟨rfl, rfl, List.isChain_pair.2 ⟨(false, true, 1), by simp [hG'], ?_⟩⟩
      left
      exact ⟨rfl, rfl⟩
    obtain ⟨p', hp', hw', hl⟩ := hsp.least G false true (by subst hG'; decide) (by subst hG'; decide)
      ⟨_, hw⟩
    rw [hp] at hp'
    cases hp'
    have := hl _ hw
    obtain ⟨w1, w2, -⟩ := hw'
    match p, this, w1, w2 with
    | [a], _, w1, w2 => simp_all
    | [a, b], _, w1, w2 =>
      simp only [List.head?_cons, Option.some.injEq] at w1
      simp only [List.getLast?_cons_cons, List.getLast?_singleton, Option.some.injEq] at w2
      subst w1 w2
      cases hks
      rfl
  · rw [if_neg h0] at h1
    cases h1

end BNS
