import Verif.Proofs.EmaMain
import Verif.Proofs.PathLib
import Verif.Proofs.PfNode

/-!
# C98: the commands of the EMA demo, from the files to the stored results
-/

namespace BNS

set_option linter.unusedSectionVars false

section
variable {K : Type} [LinearOrder K] {m : NetJson K} {scen : List (K × List ℚ)}

/-- The probabilities of the connections: the set drawn for its position in the file. -/
def EmaProbs (m : NetJson K) (draw : ℕ → Fin 3) (prob : K → ℕ → ℚ) : Prop :=
  ∀ i c, m.conns[i]? = some c → ∀ s, prob c.1 s = (emaTable.getD (draw i) []).getD s 0

theorem emaProbs_eq {draw : ℕ → Fin 3} {prob : K → ℕ → ℚ} (hn : (m.conns.map Prod.fst).Nodup)
    (h : EmaProbs m draw prob) {c : K × K × K × ℚ} (hc : c ∈ m.conns) (s : ℕ) :
    emaProb (emaDraws draw (m.conns.map Prod.fst)) c.1 s = prob c.1 s := by
  obtain ⟨i, hi⟩ := List.mem_iff_getElem?.1 hc
  have hk : (m.conns.map Prod.fst)[i]? = some c.1 := by rw [List.getElem?_map, hi]; rfl
  rw [emaProb_mem hn (emaDraws_get draw _ hk), h i c hi s, emaSet_table]

theorem delayVs_names : (delayVs m scen).map Prod.fst = m.conns.map Prod.fst := by
  simp [delayVs, List.map_map, Function.comp_def]

theorem delayVs_prod (h3 : ∀ c ∈ m.conns, ((scen.lookup c.1).getD []).length = 3) :
    ((delayVs m scen).map Prod.snd).prod = 3 ^ m.conns.length := by
  rw [delayVs_three h3]
  simp [List.map_map, Function.comp_def, List.map_const', List.prod_replicate]

open Classical in
/-- **C98.**  `main(key, max_sf)` of the EMA demo, for files that describe a network with three travel
times per connection and a pair called `key`: it stores

* the variables of the connections, with their travel times, and of the system;
* one CPM per connection with the probabilities of the set drawn for it, and one CPM of the system whose
  event matrix has exactly one row for every vector of connection states, which says failure only where
  no route is within twice the shortest intact travel time, survival only where one is, and unknown only
  if a limit is too small;
* valid rules, and branches that partition the vectors;
* a monitor all of whose rows bound the probability that no route is that short, and whose counters of
  evaluations start again at 0 for the second run; the two runs together evaluate no vector twice. -/
theorem C98_main {lib : PathLib K} (hlib : PathLibOK lib) {draw : ℕ → Fin 3} {disk : Disk K}
    {data : List (CfgKey K × CfgVal K)} {p s q s1 : K} (h : EmaFileOK disk.files data p s q s1 m scen)
    {key o d : K} (hkey : m.ods.lookup key = some (o, d)) {sys : K} (hsys : sys ∉ m.conns.map Prod.fst)
    {maxSf : ℕ} (h0 : 0 < maxSf) {prob : K → ℕ → ℚ} (hprob : EmaProbs m draw prob)
    (store : List (K × EmaOut K)) :
    ∃ (disk' : Disk K) (out : EmaOut K) (t : ℚ) (C : List (List ℕ)),
      emaMain lib draw s1 sys key maxSf data (disk, store) = .ok (disk', itemSet store key out) ∧
      disk'.files = disk.files ∧ ShortestTime m scen o d (allIntact scen) t ∧
      out.varis = (m.conns.map Prod.fst ++ [sys]).map (fun k => (k, emaVar scen sys k)) ∧
      out.cpms.map Prod.fst = m.conns.map Prod.fst ++ [sys] ∧
      (∀ c ∈ m.conns, out.cpms.lookup c.1 = some
        { vars := [emaVar scen sys c.1], noChild := 1, C := [[0], [1], [2]]
          p := [prob c.1 0, prob c.1 1, prob c.1 2] }) ∧
      out.cpms.lookup sys = some
        { vars := (sys :: m.conns.map Prod.fst).map (emaVar scen sys), noChild := 1, C := C
          p := C.map fun _ => 1 } ∧
      DecidesSystem (delayVs m scen) ((m.conns.map Prod.fst).map (emaVar scen sys))
        (Reachable m scen o d (2 * t)) (3 ^ m.conns.length < maxSf ∧ 2 * 3 ^ m.conns.length ≤ 50000) C ∧
      RulesValid (delayVs m scen) (fun x => decide (Reachable m scen o d (2 * t) x)) out.rules ∧
      Partition (delayVs m scen) out.brs ∧
      (∀ b ∈ out.brs, b.p = probOf (delayVs m scen) prob (InBox (delayVs m scen) b)) ∧
      (∀ row ∈ out.mon,
        row.pfLow ≤ probOf (delayVs m scen) prob (fun x => ¬ Reachable m scen o d (2 * t) x) ∧
        probOf (delayVs m scen) prob (fun x => ¬ Reachable m scen o d (2 * t) x) ≤ row.pfUp) ∧
      (∃ n1 n2, n1 ≤ maxSf ∧ n2 ≤ maxSf ∧ n1 + n2 ≤ 3 ^ m.conns.length ∧
        out.noSf = List.range (n1 + 1) ++ List.range (n2 + 1) ∧ out.mon.length = out.noSf.length) ∧
      out.flag.length = 2 := by
  obtain ⟨disk', t, cfg, st1, st2, bs, C, f1, f2, e1, e2, e3, e4, e5, e6, e7, e8, e9, e10⟩ :=
    emaMain_core hlib draw h hkey hsys h0 store
  obtain ⟨v1, p1, sf1, nb1, ad1, su1, w1, r1, c1⟩ := e3 10000
  obtain ⟨v2, p2, sf2, nb2, ad2, su2, w2, r2, c2⟩ := e3 50000
  have hd := h.delay
  have hU := ema_sysVars hd h.three hsys
  have hsame : ∀ kn ∈ delayVs m scen, ∀ i,
      emaProb (emaDraws draw (m.conns.map Prod.fst)) kn.1 i = prob kn.1 i := by
    intro kn hkn i
    obtain ⟨c, hc, rfl⟩ := List.mem_map.1 hkn
    exact emaProbs_eq hd.names hprob hc i
  have h01 : 0 < (cfg 10000).maxSf := by rw [sf1]; exact h0
  have h02 : 0 < (cfg 50000).maxSf := by rw [sf2]; exact h0
  have hs2 : StartOK (cfg 50000) _ st1.rules none :=
    run_restart c1 h01 (Ex.start_empty _) e4 (v2.trans v1.symm) (p2.trans p1.symm)
  have hlook : ∀ kn ∈ (cfg 50000).vs, (delayVaris m scen).lookup kn.1 =
      some (emaVar scen sys kn.1) := by
    intro kn hkn
    rw [v2] at hkn
    obtain ⟨c, hc, rfl⟩ := List.mem_map.1 hkn
    have hne : c.1 ≠ sys := fun e => hsys (e ▸ List.mem_map_of_mem hc)
    simp only [delayVaris_lookup (List.mem_map_of_mem (f := Prod.fst) hc), emaVar, if_neg hne]
  obtain ⟨bs', C', b1, b2, -, b4⟩ := run_decides c2 su2 h02 w2 r2 hs2 e5 (sys := sys)
    (varis := fun k => (delayVaris m scen).lookup k) (U := emaVar scen sys) (by rw [v2]; exact hU) hlook
  rw [e8] at b1
  cases b1
  rw [v2] at b2 b4
  rw [e9] at b2
  cases b2
  obtain ⟨m1, -, -, -⟩ := C27_bounds c1 (Ex.start_empty _) e4
  obtain ⟨m2, -, rv, hrun⟩ := C27_bounds c2 hs2 e5
  obtain ⟨bs2, -, q1, q2, q3, -⟩ := hrun h02
  rw [e8] at q1
  cases q1
  rw [v1, p1] at m1
  rw [v2, p2] at m2 q3
  rw [v2] at rv q2
  have hcv : compVariables (emaVar scen sys) (delayVs m scen) =
      (m.conns.map Prod.fst).map (emaVar scen sys) := by
    rw [← delayVs_names (scen := scen), List.map_map]
    rfl
  have hprd := delayVs_prod h.three
  rw [hcv, hprd, sf2, nb2] at b4
  have hpf : pFail (delayVs m scen) (emaProb (emaDraws draw (m.conns.map Prod.fst)))
      (fun x => decide (Reachable m scen o d (2 * t) x)) =
      probOf (delayVs m scen) prob (fun x => ¬ Reachable m scen o d (2 * t) x) := by
    rw [pFail_decide]
    exact probOf_probs hsame
  rw [hpf] at m1 m2
  have hno := C61_no_reevaluation c1 c2 (v2.trans v1.symm) (.inl ad1) (.inl ad2) (Ex.start_empty _) e4 hs2 e5
  have hlen : ∀ {n rules} {st : RunState K}, (cfg n).maxSf = maxSf → run (cfg n) rules none = .ok st →
      st.evals.length ≤ maxSf ∧ st.mon.length = st.evals.length + 1 := by
    intro n rules st hn hst
    rcases C60_flag hst with ⟨-, hz, -⟩ | ⟨-, ea, eb⟩ | ⟨ea, eb, -⟩
    · omega
    · omega
    · omega
  refine ⟨disk', _, t, C, e10, e2, e1, rfl, ?_, ?_, ?_, ?_, rv, q2, ?_, ?_, ?_, rfl⟩
  · simp only [List.map_append, List.map_map, Function.comp_def, List.map_cons, List.map_nil]
    rw [← delayVs_names (scen := scen)]
  · intro c hc
    have hne : c.1 ≠ sys := fun e => hsys (e ▸ List.mem_map_of_mem hc)
    have hmem : (c.1, ((scen.lookup c.1).getD []).length) ∈ delayVs m scen :=
      List.mem_map_of_mem (f := fun c : K × K × K × ℚ => (c.1, ((scen.lookup c.1).getD []).length)) hc
    have hl : ((delayVs m scen).map fun kn => (kn.1, compCpm (emaVar scen sys)
        (emaProb (emaDraws draw (m.conns.map Prod.fst))) kn)).lookup c.1 =
        some (compCpm (emaVar scen sys) (emaProb (emaDraws draw (m.conns.map Prod.fst))) (c.1, 3)) := by
      refine lookup_mem_items (kv := (c.1, _)) ?_ ?_
      · rw [List.map_map]
        have : (Prod.fst ∘ fun kn : K × ℕ => (kn.1, compCpm (emaVar scen sys)
          (emaProb (emaDraws draw (m.conns.map Prod.fst))) kn)) = Prod.fst := rfl
        rw [this, delayVs_names]
        exact hd.names
      · rw [h.three c hc] at hmem
        exact List.mem_map_of_mem (f := fun kn : K × ℕ => (kn.1, compCpm (emaVar scen sys)
          (emaProb (emaDraws draw (m.conns.map Prod.fst))) kn)) hmem
    show List.lookup c.1 (_ ++ _) = _
    rw [List.lookup_append, hl]
    simp only [Option.some_or, compCpm, List.range_succ, List.range_zero, List.nil_append,
      List.cons_append, List.map_cons, List.map_nil, emaProbs_eq hd.names hprob hc]
  · show List.lookup sys (_ ++ _) = _
    have hnone : ((delayVs m scen).map fun kn => (kn.1, compCpm (emaVar scen sys)
        (emaProb (emaDraws draw (m.conns.map Prod.fst))) kn)).lookup sys = none := by
      refine lookup_missing ?_
      rw [List.map_map]
      have : (Prod.fst ∘ fun kn : K × ℕ => (kn.1, compCpm (emaVar scen sys)
        (emaProb (emaDraws draw (m.conns.map Prod.fst))) kn)) = Prod.fst := rfl
      rw [this, delayVs_names]
      exact hsys
    rw [List.lookup_append, hnone]
    simp [sysCpm, hcv]
  · intro x hx
    obtain ⟨j, s', cs, k1, k2, k3, k4, k5, k6, k7⟩ := b4 x hx
    exact ⟨j, s', cs, k1, k2, k3, k4, fun e => by simpa using k5 e, fun e => by simpa using k6 e, k7⟩
  · intro b hb
    rw [(q3 b hb).1]
    exact probOf_probs hsame
  · intro row hrow
    rcases List.mem_append.1 hrow with hrow | hrow
    · exact m1 row hrow
    · exact m2 row hrow
  · obtain ⟨l1, l2⟩ := hlen sf1 e4
    obtain ⟨l3, l4⟩ := hlen sf2 e5
    refine ⟨st1.evals.length, st2.evals.length, l1, l3, ?_, rfl, ?_⟩
    · have := hno.2
      rwa [v1, hprd] at this
    · simp [l2, l4]

open Classical in
/-- The bounds never get worse, within a run and from the first run to the second, if the network is small
enough for the first limit of 10000 branches.  Missing for the full claim: larger networks, for which
decompositions are cut short. -/
theorem C98_narrows_partial {lib : PathLib K} (hlib : PathLibOK lib) {draw : ℕ → Fin 3} {disk : Disk K}
    {data : List (CfgKey K × CfgVal K)} {p s q s1 : K} (h : EmaFileOK disk.files data p s q s1 m scen)
    {key o d : K} (hkey : m.ods.lookup key = some (o, d)) {sys : K} (hsys : sys ∉ m.conns.map Prod.fst)
    {maxSf : ℕ} (h0 : 0 < maxSf) (hsmall : 2 * 3 ^ m.conns.length ≤ 10000) {store : List (K × EmaOut K)}
    {r : Disk K × List (K × EmaOut K)} {out : EmaOut K}
    (hr : emaMain lib draw s1 sys key maxSf data (disk, store) = .ok r) (ho : r.2.lookup key = some out) :
    out.mon.Pairwise fun a b => a.pfLow ≤ b.pfLow ∧ b.pfUp ≤ a.pfUp := by
  obtain ⟨disk', t, cfg, st1, st2, bs, C, f1, f2, e1, e2, e3, e4, e5, e6, e7, e8, e9, e10⟩ :=
    emaMain_core hlib draw h hkey hsys h0 store
  rw [hr] at e10
  cases e10
  rw [lookup_itemSet, if_pos rfl] at ho
  cases ho
  obtain ⟨v1, p1, sf1, nb1, ad1, su1, w1, r1, c1⟩ := e3 10000
  obtain ⟨v2, p2, sf2, nb2, ad2, su2, w2, r2, c2⟩ := e3 50000
  have h01 : 0 < (cfg 10000).maxSf := by rw [sf1]; exact h0
  have hs2 := run_restart c1 h01 (Ex.start_empty _) e4 (v2.trans v1.symm) (p2.trans p1.symm)
  have hm1 : 2 * ((cfg 10000).vs.map Prod.snd).prod ≤ (cfg 10000).maxNb := by
    rw [v1, nb1, delayVs_prod h.three]; exact hsmall
  have hm2 : 2 * ((cfg 50000).vs.map Prod.snd).prod ≤ (cfg 50000).maxNb := by
    rw [v2, nb2, delayVs_prod h.three]; omega
  show (st1.mon ++ st2.mon).Pairwise _
  rw [List.pairwise_append]
  refine ⟨C30_monotone c1 hm1 (Ex.start_empty _) (resume_none _ _) e4,
    C30_monotone c2 hm2 hs2 (resume_none _ _) e5, fun a ha b hb => ?_⟩
  have k1 := (run_rows c1 hm1 (Ex.start_empty _) (resume_none _ _) e4 a ha).2
  have k2 := (run_rows c2 hm2 hs2 (resume_none _ _) e5 b hb).1
  unfold BelowRules at k1
  unfold AboveRules at k2
  rw [v2, p2] at k2
  rw [v1, p1] at k1
  exact ⟨k1.1.trans k2.1, k2.2.trans k1.2⟩

open Classical in
/-- How to check the stored bounds, for networks of any size and any limit of evaluations: a row of the
monitor is exact precisely when its two bounds are equal. -/
theorem C98_check {lib : PathLib K} (hlib : PathLibOK lib) {draw : ℕ → Fin 3} {disk : Disk K}
    {data : List (CfgKey K × CfgVal K)} {p s q s1 : K} (h : EmaFileOK disk.files data p s q s1 m scen)
    {key o d : K} (hkey : m.ods.lookup key = some (o, d)) {sys : K} (hsys : sys ∉ m.conns.map Prod.fst)
    {maxSf : ℕ} (h0 : 0 < maxSf) {prob : K → ℕ → ℚ} (hprob : EmaProbs m draw prob)
    {store : List (K × EmaOut K)} {r : Disk K × List (K × EmaOut K)} {out : EmaOut K}
    (hr : emaMain lib draw s1 sys key maxSf data (disk, store) = .ok r) (ho : r.2.lookup key = some out) :
    ∃ t, ShortestTime m scen o d (allIntact scen) t ∧ ∀ row ∈ out.mon,
      (row.pfLow = row.pfUp ↔
        row.pfLow = probOf (delayVs m scen) prob (fun x => ¬ Reachable m scen o d (2 * t) x) ∧
        row.pfUp = probOf (delayVs m scen) prob (fun x => ¬ Reachable m scen o d (2 * t) x)) := by
  obtain ⟨disk', out', t, C, e1, -, e2, -, -, -, -, -, -, -, -, e3, -⟩ :=
    C98_main hlib h hkey hsys h0 hprob store
  rw [hr] at e1
  cases e1
  rw [lookup_itemSet, if_pos rfl] at ho
  cases ho
  refine ⟨t, e2, fun row hrow => ?_⟩
  obtain ⟨b1, b2⟩ := e3 row hrow
  constructor
  · intro he
    rw [← he] at b2
    exact ⟨le_antisymm b1 b2, he ▸ le_antisymm b1 b2⟩
  · rintro ⟨f1, f2⟩
    rw [f1, f2]

open Classical in
/-- The last row of the monitor is exact, and both runs are complete, if the limit of evaluations and the
first limit of branches suffice for the number of vectors. -/
theorem C98_exact_partial {lib : PathLib K} (hlib : PathLibOK lib) {draw : ℕ → Fin 3} {disk : Disk K}
    {data : List (CfgKey K × CfgVal K)} {p s q s1 : K} (h : EmaFileOK disk.files data p s q s1 m scen)
    {key o d : K} (hkey : m.ods.lookup key = some (o, d)) {sys : K} (hsys : sys ∉ m.conns.map Prod.fst)
    {maxSf : ℕ} (hbig : 3 ^ m.conns.length < maxSf) (hsmall : 2 * 3 ^ m.conns.length ≤ 10000)
    {prob : K → ℕ → ℚ} (hprob : EmaProbs m draw prob) {store : List (K × EmaOut K)}
    {r : Disk K × List (K × EmaOut K)} {out : EmaOut K}
    (hr : emaMain lib draw s1 sys key maxSf data (disk, store) = .ok r) (ho : r.2.lookup key = some out) :
    out.flag = [.complete, .complete] ∧ ∃ row t, out.mon.getLast? = some row ∧
      ShortestTime m scen o d (allIntact scen) t ∧
      row.pfLow = probOf (delayVs m scen) prob (fun x => ¬ Reachable m scen o d (2 * t) x) ∧
      row.pfUp = probOf (delayVs m scen) prob (fun x => ¬ Reachable m scen o d (2 * t) x) := by
  obtain ⟨disk', t, cfg, st1, st2, bs, C, f1, f2, e1, e2, e3, e4, e5, e6, e7, e8, e9, e10⟩ :=
    emaMain_core hlib draw h hkey hsys (Nat.zero_lt_of_lt hbig) store
  rw [hr] at e10
  cases e10
  rw [lookup_itemSet, if_pos rfl] at ho
  cases ho
  obtain ⟨v1, p1, sf1, nb1, ad1, su1, w1, r1, c1⟩ := e3 10000
  obtain ⟨v2, p2, sf2, nb2, ad2, su2, w2, r2, c2⟩ := e3 50000
  have h01 : 0 < (cfg 10000).maxSf := by rw [sf1]; omega
  have hs2 := run_restart c1 h01 (Ex.start_empty _) e4 (v2.trans v1.symm) (p2.trans p1.symm)
  have hm1 : 2 * ((cfg 10000).vs.map Prod.snd).prod ≤ (cfg 10000).maxNb := by
    rw [v1, nb1, delayVs_prod h.three]; exact hsmall
  have hm2 : 2 * ((cfg 50000).vs.map Prod.snd).prod ≤ (cfg 50000).maxNb := by
    rw [v2, nb2, delayVs_prod h.three]; omega
  obtain ⟨st, a1, a2⟩ := C29_completes c1 su1 (by rw [v1, sf1, delayVs_prod h.three]; exact hbig) hm1 w1 r1
    (Ex.start_empty _)
  rw [e4] at a1
  cases a1
  obtain ⟨st, b1, b2⟩ := C29_completes c2 su2 (by rw [v2, sf2, delayVs_prod h.three]; exact hbig) hm2 w2 r2
    hs2
  rw [e5] at b1
  cases b1
  rw [e6] at a2
  rw [e7] at b2
  cases a2
  cases b2
  obtain ⟨bs', row, -, g2, -, g4, g5⟩ := C28_enough_branches_partial c2 hs2 (resume_none _ _) hm2 e5 e7
  have hpf : pFail (delayVs m scen) (emaProb (emaDraws draw (m.conns.map Prod.fst)))
      (fun x => decide (Reachable m scen o d (2 * t) x)) =
      probOf (delayVs m scen) prob (fun x => ¬ Reachable m scen o d (2 * t) x) := by
    rw [pFail_decide]
    refine probOf_probs fun kn hkn i => ?_
    obtain ⟨c, hc, rfl⟩ := List.mem_map.1 hkn
    exact emaProbs_eq h.delay.names hprob hc i
  rw [v2, p2, hpf] at g4 g5
  refine ⟨rfl, row, t, ?_, e1, g4, g5⟩
  show (st1.mon ++ st2.mon).getLast? = _
  rw [List.getLast?_append, g2]
  rfl

open Classical in
/-- The stored CPMs answer questions: eliminating connections from them, in any order and leaving any
others, gives a table whose answer for failure, with some of the remaining connections in given states,
bounds the probability from below, and with the answer for unknown added from above. -/
theorem C98_answers {lib : PathLib K} (hlib : PathLibOK lib) {draw : ℕ → Fin 3} {disk : Disk K}
    {data : List (CfgKey K × CfgVal K)} {p s q s1 : K} (h : EmaFileOK disk.files data p s q s1 m scen)
    {key o d : K} (hkey : m.ods.lookup key = some (o, d)) {sys : K} (hsys : sys ∉ m.conns.map Prod.fst)
    {maxSf : ℕ} (h0 : 0 < maxSf) {prob : K → ℕ → ℚ} (hprob : EmaProbs m draw prob)
    {store : List (K × EmaOut K)} {r : Disk K × List (K × EmaOut K)} {out : EmaOut K}
    (hr : emaMain lib draw s1 sys key maxSf data (disk, store) = .ok r) (ho : r.2.lookup key = some out)
    {gone kept : List K} (hgk : (m.conns.map Prod.fst).Perm (gone ++ kept)) {ve : List (Variable K)}
    (hve : ve.Perm (gone.map (emaVar scen sys))) {given : List (K × ℕ)}
    (hg : ∀ a ∈ given, a.1 ∈ kept ∧ a.2 < 3) (hgn : (given.map Prod.fst).Nodup) :
    ∃ P t pf pu, ShortestTime m scen o d (allIntact scen) t ∧
      variableElim (out.cpms.map Prod.snd) ve = .ok P ∧
      P.getProb ((sys :: given.map Prod.fst).map (emaVar scen sys)) (0 :: given.map Prod.snd) true = .ok pf ∧
      P.getProb ((sys :: given.map Prod.fst).map (emaVar scen sys)) (2 :: given.map Prod.snd) true = .ok pu ∧
      pf ≤ probOf (delayVs m scen) prob
        (fun x => ¬ Reachable m scen o d (2 * t) x ∧ ∀ a ∈ given, x a.1 = a.2) ∧
      probOf (delayVs m scen) prob
        (fun x => ¬ Reachable m scen o d (2 * t) x ∧ ∀ a ∈ given, x a.1 = a.2) ≤ pf + pu := by
  obtain ⟨disk', t, cfg, st1, st2, bs, C, f1, f2, e1, e2, e3, e4, e5, e6, e7, e8, e9, e10⟩ :=
    emaMain_core hlib draw h hkey hsys h0 store
  rw [hr] at e10
  cases e10
  rw [lookup_itemSet, if_pos rfl] at ho
  cases ho
  obtain ⟨v1, p1, sf1, nb1, ad1, su1, w1, r1, c1⟩ := e3 10000
  obtain ⟨v2, p2, sf2, nb2, ad2, su2, w2, r2, c2⟩ := e3 50000
  have hU := ema_sysVars h.delay h.three hsys
  have h01 : 0 < (cfg 10000).maxSf := by rw [sf1]; exact h0
  have h02 : 0 < (cfg 50000).maxSf := by rw [sf2]; exact h0
  have hs2 := run_restart c1 h01 (Ex.start_empty _) e4 (v2.trans v1.symm) (p2.trans p1.symm)
  have hlook : ∀ kn ∈ (cfg 50000).vs, (delayVaris m scen).lookup kn.1 =
      some (emaVar scen sys kn.1) := by
    intro kn hkn
    rw [v2] at hkn
    obtain ⟨c, hc, rfl⟩ := List.mem_map.1 hkn
    have hne : c.1 ≠ sys := fun e => hsys (e ▸ List.mem_map_of_mem hc)
    simp only [delayVaris_lookup (List.mem_map_of_mem (f := Prod.fst) hc), emaVar, if_neg hne]
  obtain ⟨bs', C', b1, b2, b3⟩ := C78_component_bounds c2 h02 hs2 e5 (sys := sys) (U := emaVar scen sys)
    (varis := fun k => (delayVaris m scen).lookup k) (by rw [v2]; exact hU) hlook (lbl := stBrToCs) rfl rfl rfl
  rw [e8] at b1
  cases b1
  rw [v2] at b2
  rw [e9] at b2
  cases b2
  rw [v2, p2] at b3
  obtain ⟨P, g1, g2⟩ := b3 (((delayVs m scen).map (fun kn => (kn.1, compCpm (emaVar scen sys)
      (emaProb (emaDraws draw (m.conns.map Prod.fst))) kn)) ++
      [(sys, sysCpm (emaVar scen sys) (delayVs m scen) sys C)]).map Prod.snd)
    (gone.map fun k => (k, 3)) (kept.map fun k => (k, 3)) ve
    (by rw [List.map_append, List.map_map]; exact List.Perm.refl _)
    (by rw [delayVs_three h.three, ← List.map_append]; exact hgk.map _)
    (by unfold compVariables; rw [List.map_map]; exact hve)
  obtain ⟨pf, pu, k1, k2, k3, k4⟩ := g2 (given.map fun a => ((a.1, 3), a.2))
    (by
      intro a ha
      obtain ⟨b, hb, rfl⟩ := List.mem_map.1 ha
      exact ⟨List.mem_map_of_mem (hg b hb).1, (hg b hb).2⟩)
    (by rw [List.map_map]; exact hgn)
  have hev : probOf (delayVs m scen) (emaProb (emaDraws draw (m.conns.map Prod.fst)))
      (fun x => decide (Reachable m scen o d (2 * t) x) = false ∧
        ∀ a ∈ given.map fun a => ((a.1, 3), a.2), x a.1.1 = a.2) =
      probOf (delayVs m scen) prob
        (fun x => ¬ Reachable m scen o d (2 * t) x ∧ ∀ a ∈ given, x a.1 = a.2) := by
    rw [probOf_probs (q := prob) (fun kn hkn i => by
      obtain ⟨c, hc, rfl⟩ := List.mem_map.1 hkn
      exact emaProbs_eq h.delay.names hprob hc i)]
    refine probOf_congr hU.varis prob _ _ fun x _ => and_congr (by simp) ?_
    exact List.forall_mem_map
  rw [hev] at k3 k4
  simp only [List.map_map] at k1 k2
  refine ⟨P, t, pf, pu, e1, g1, ?_, ?_, k3, k4⟩
  · rw [List.map_cons, List.map_map]; exact k1
  · rw [List.map_cons, List.map_map]; exact k2

/-- The errors: a pair or a connection that the files do not have is a `KeyError`, a configuration without
scenario file an `AttributeError`; nothing is stored. -/
theorem C98_errors {lib : PathLib K} {draw : ℕ → Fin 3} {disk : Disk K} {data : List (CfgKey K × CfgVal K)}
    {r : Cfg K × Disk K} (hcfg : Cfg.new disk data = .ok r) {s1 sys key : K} {maxSf : ℕ}
    {store : List (K × EmaOut K)} :
    (r.1.infra.ods.lookup key = none →
      emaMain lib draw s1 sys key maxSf data (disk, store) = .error .key) ∧
    (∀ od, r.1.infra.ods.lookup key = some od → r.1.infra.conns ≠ [] → r.1.scenarios = none →
      emaMain lib draw s1 sys key maxSf data (disk, store) = .error .attribute) ∧
    (∀ od sc, r.1.infra.ods.lookup key = some od → r.1.infra.conns ≠ [] → r.1.scenarios = some sc →
      sc.scenarios.lookup s1 = none →
      emaMain lib draw s1 sys key maxSf data (disk, store) = .error .key) ∧
    (∀ od sc scen k ks, r.1.infra.ods.lookup key = some od → r.1.infra.conns.map Prod.fst = k :: ks →
      r.1.scenarios = some sc → sc.scenarios.lookup s1 = some scen →
      (scen.lookup k = none → emaMain lib draw s1 sys key maxSf data (disk, store) = .error .key) ∧
      (∀ ts, scen.lookup k = some ts → ts.length < 2 →
        emaMain lib draw s1 sys key maxSf data (disk, store) = .error .assertion)) := by
  have hmap : ∀ {e : Err} {k : K} {ks : List K}, r.1.infra.conns.map Prod.fst = k :: ks →
      (∀ v, emaComp r.1.scenarios s1 (k, v) = .error e) →
      (emaDraws draw (r.1.infra.conns.map Prod.fst)).mapM (emaComp r.1.scenarios s1) = .error e := by
    intro e k ks hk hv
    rw [hk]
    unfold emaDraws
    rw [List.zipIdx_cons, List.map_cons, List.mapM_cons, hv]
    rfl
  have hmain : ∀ {e : Err} {od}, r.1.infra.ods.lookup key = some od →
      (emaDraws draw (r.1.infra.conns.map Prod.fst)).mapM (emaComp r.1.scenarios s1) = .error e →
      emaMain lib draw s1 sys key maxSf data (disk, store) = .error e := by
    intro e od hod hm
    unfold emaMain
    simp only [hcfg, ok_bind, itemsGet_some hod, hm, error_bind]
  have hcons : r.1.infra.conns ≠ [] → ∃ k ks, r.1.infra.conns.map Prod.fst = k :: ks := by
    intro hne
    cases hc : r.1.infra.conns with
    | nil => exact absurd hc hne
    | cons a l => exact ⟨a.1, l.map Prod.fst, rfl⟩
  refine ⟨?_, ?_, ?_, ?_⟩
  · intro hno
    unfold emaMain
    simp only [hcfg, ok_bind, itemsGet_none hno, error_bind]
  · intro od hod hne hsc
    obtain ⟨k, ks, hk⟩ := hcons hne
    exact hmain hod (hmap hk fun v => by rw [hsc]; rfl)
  · intro od sc hod hne hsc hno
    obtain ⟨k, ks, hk⟩ := hcons hne
    exact hmain hod (hmap hk fun v => by
      rw [hsc]; simp only [emaComp, itemsGet_none hno, error_bind])
  · intro od sc scen k ks hod hk hsc hs
    refine ⟨fun hno => hmain hod (hmap hk fun v => ?_), fun ts hts hlen => hmain hod (hmap hk fun v => ?_)⟩
    · rw [hsc]; simp only [emaComp, itemsGet_some hs, ok_bind, itemsGet_none hno, error_bind]
    · rw [hsc]
      simp only [emaComp, itemsGet_some hs, ok_bind, itemsGet_some hts]
      have : Cpm.mk' { vars := [Variable.mk' k ts .dflt], noChild := 1, C := [[0], [1], [2]]
                       p := [emaSet v 0, emaSet v 1, emaSet v 2] } = .error .assertion := by
        match ts, hlen with
        | [], _ => rfl
        | [a], _ => rfl
      rw [this, error_bind]

end

/-! ### Example: the triangle with three travel times per connection -/

namespace Ex

/-- Travel times, worst state first. -/
def emaScen : List (ℕ × List ℚ) := [(10, [10, 2, 1]), (11, [10, 2, 1]), (12, [30, 6, 3])]

/-- File 1 is the model file, file 2 the scenario file with scenario 40. -/
def emaFiles : ℕ → Option (FileC ℕ)
  | 1 => some (.model byFile)
  | 2 => some (.scen { damage := some [0, 1, 2], scenarios := [(40, emaScen)] })
  | _ => none

def emaData : List (CfgKey ℕ × CfgVal ℕ) :=
  [(.configurationId, .text 50), (.modelName, .text 1), (.scenarioName, .text 2), (.outputPath, .text 3),
    (.maxBranches, .num 1000000)]

theorem emaOK : EmaFileOK emaFiles emaData 1 2 3 40 byFile emaScen := by
  refine ⟨rfl, rfl, rfl, ⟨_, _, rfl, rfl, rfl⟩, ⟨_, rfl⟩, ⟨_, rfl⟩, rfl, ?_, by decide +kernel⟩
  refine ⟨byOK.gtype, byOK.simple, byOK.noParallel, byOK.names, ?_, byOK.ods⟩
  intro c hc
  simp only [byFile, List.mem_cons, List.not_mem_nil, or_false] at hc
  rcases hc with rfl | rfl | rfl
  · exact ⟨[10, 2, 1], rfl, by decide +kernel, by decide, by decide +kernel, by decide +kernel⟩
  · exact ⟨[10, 2, 1], rfl, by decide +kernel, by decide, by decide +kernel, by decide +kernel⟩
  · exact ⟨[30, 6, 3], rfl, by decide +kernel, by decide, by decide +kernel, by decide +kernel⟩

/-- The hypotheses of the theorems are met: a computable path library, the sets drawn in turn, 100
evaluations. -/
example : PathLibOK (enumLib (K := ℕ)) ∧ EmaFileOK emaFiles emaData 1 2 3 40 byFile emaScen ∧
    byFile.ods.lookup 20 = some (0, 2) ∧ 99 ∉ byFile.conns.map Prod.fst ∧ 3 ^ byFile.conns.length < 100 ∧
    2 * 3 ^ byFile.conns.length ≤ 10000 ∧
    ∃ prob, EmaProbs byFile (fun i => Fin.ofNat 3 i) prob ∧ prob 10 0 = 1 / 100 ∧ prob 12 2 = 70 / 100 := by
  refine ⟨enumLib_ok, emaOK, rfl, by decide, by decide, by decide,
    fun k s => (emaTable.getD (k - 10) []).getD s 0, ?_, ?_, ?_⟩
  · intro i c hi s
    match i, hi with
    | 0, hi => cases hi; rfl
    | 1, hi => cases hi; rfl
    | 2, hi => cases hi; rfl
    | _ + 3, hi => cases hi
  · decide +kernel
  · decide +kernel

end Ex

/-- A connection with two travel times is accepted, but the third row of its CPM is then the composite of
both states: the probabilities of the two states, as the CPM answers them, add up to almost 2. -/
theorem C98_not_two_times : ∃ (M : Cpm ℕ) (v : Variable ℕ) (p0 p1 : ℚ),
    emaComp (some { damage := none, scenarios := [(40, [(10, [4, 1])])] }) 40 (10, 0) = .ok ((10, v), 10, M) ∧
    M.getProb [v] [0] true = .ok p0 ∧ M.getProb [v] [1] true = .ok p1 ∧ p0 + p1 = 195 / 100 :=
  ⟨{ vars := [.mk' 10 [4, 1] .dflt], noChild := 1, C := [[0], [1], [2]], p := [1 / 100, 4 / 100, 95 / 100] },
    .mk' 10 [4, 1] .dflt, 96 / 100, 99 / 100, rfl, by decide +kernel, by decide +kernel, by norm_num⟩

end BNS
