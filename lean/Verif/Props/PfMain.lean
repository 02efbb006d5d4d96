import Verif.Proofs.PfMain

/-!
# C96: the commands of the pf_map demo, from the files to the stored results

`N` are the numerical functions, `inf` is the number that stands for `float('inf')` as limit.
-/

namespace BNS

set_option linter.unusedSectionVars false

section
variable {K : Type} [DecidableEq K] {nSf nWr nCov epi : K} {ext : K → PfExt K}
  {data : List (CfgKey K × CfgVal K)} {p q : K} {m : NetJson K} {mb w : ℚ} {sf cov : CfgVal K}
  {N : PfNum} {lib : PathLib K} {inf : ℕ} {W : PfWorld K}

/-- The failure probability of a road is determined by the files. -/
theorem C96_road_unique {e : PfExt K} {x0 y0 Mw : ℝ} {c : K × K × K × ℚ} {a b : ℝ}
    (ha : RoadProb N m e x0 y0 Mw c a) (hb : RoadProb N m e x0 y0 Mw c b) : a = b := by
  obtain ⟨r, f, meds, disp, med, h1, h2, h3, h4, rfl⟩ := ha
  obtain ⟨r', f', meds', disp', med', g1, g2, g3, g4, rfl⟩ := hb
  have hr := h1.unique g1
  rw [h2] at g2
  cases g2
  rw [h3] at g3
  cases g3
  rw [h4] at g4
  cases g4
  rw [hr]

open Classical in
/-- **C96, `main`** with limits that are large enough: it returns and writes `result.txt` with one line
for each node that is neither the epicentre nor an origin, in the order of the model file.  The bounds of
a line enclose the probability, when roads fail independently with the probabilities of the ground motion
model, that the node does not reach an origin within the allowed multiple of the time in the intact
network, as closely as the configuration file asks; for a node without any way to an origin both are 0.
No other directory is changed, and the roads are stored. -/
theorem C96_main (hlib : PathLibOK lib)
    (h : PfFileOK nSf nWr nCov W.1.files ext data p q m mb w sf cov) (hN : PfNumOK N m) {eqName : K}
    {x0 y0 Mw : ℝ} (heq : (ext p).eq.lookup eqName = some ([x0, y0], Mw)) (h6 : 6 ≤ Mw) (h8 : Mw ≤ 8.5)
    {done : List K} (hd : (m.comps.map Prod.fst).Perm done)
    (hsf : sf = .empty ∨ sf = .null ∨ sf = .num 0) (hinf : 2 ^ m.conns.length < inf)
    (hmb : 2 * 2 ^ m.conns.length ≤ mb) (hw : 0 ≤ w) :
    ∃ W' lines pf, pfMain lib N inf nSf nWr nCov epi ext data eqName done W = .ok W' ∧
      W'.1.files = W.1.files ∧ (∀ o, o ≠ some q → W'.2 o = W.2 o) ∧
      (W'.2 (some q)).mcs = (W.2 (some q)).mcs ∧ RoadsStored N m (W'.2 (some q)) ∧
      (W'.2 (some q)).result = some lines ∧
      (∀ c ∈ m.conns, RoadProb N m (ext p) x0 y0 Mw c (pf c.1)) ∧
      lines.map NodeLine.node =
        (m.comps.map Prod.fst).filter (fun n => n ≠ epi ∧ n ∉ (ext p).dests) ∧
      ∀ l ∈ lines, l.nsamp = 0 ∧ l.up - l.low ≤ l.low * w ∧
        (∀ t, IntactTime (pfCfgOf N m (ext p) pf 0 0 0) l.node t →
          l.low ≤ probOf (m.conns.map fun c => (c.1, 2)) (pfCfgOf N m (ext p) pf 0 0 0).probs
            (fun x => ¬ Reaches (pfCfgOf N m (ext p) pf 0 0 0) l.node ((ext p).thres * t) x) ∧
          probOf (m.conns.map fun c => (c.1, 2)) (pfCfgOf N m (ext p) pf 0 0 0).probs
            (fun x => ¬ Reaches (pfCfgOf N m (ext p) pf 0 0 0) l.node ((ext p).thres * t) x) ≤ l.up) ∧
        ((∀ d ∈ (ext p).dests, ¬ ∃ es ns, Route (fileGraph m) l.node es ns d) → l.low = 0 ∧ l.up = 0) := by
  obtain ⟨c, nodes, hc, hn, hG, e1, e2, e3, e4, e5, e6, -, e7, e8, e9⟩ := pfConfig_ok (N := N) h heq h6 h8
  obtain ⟨hp1, hp2⟩ := pf_probs (pf := c.pf) hN e9
  have hmax : flowLimit inf c.maxSf = .ok inf := by
    rw [e5]
    rcases hsf with rfl | rfl | rfl <;> rfl
  have hi := pfInput_eq (N := N) h e1 e2 e6 e7 hmax
  have hok := pfCfgIn_ok (pf := fun k => (c.pf.lookup k).getD 0) h hN hn hG hp2 (a := inf) (b := mb.ceil.toNat) (v := w)
  have hst := pfCfgIn_states (pf := fun k => (c.pf.lookup k).getD 0) h hN hn hG hp2 (a := inf) (b := mb.ceil.toNat) (v := w)
  have hprod : ((statesOf (pfCfgIn N m (ext p) nodes (fun k => (c.pf.lookup k).getD 0) inf mb.ceil.toNat
      w).varis).map Prod.snd).prod = 2 ^ m.conns.length := by
    rw [hst, List.map_map]
    simp [Function.comp_def]
  obtain ⟨lines, l1, l2, l3⟩ := C92_map_accuracy (epi := epi) hlib hok h.nodes
    (fun n hm => pfCfgIn_node (pf := fun k => (c.pf.lookup k).getD 0) h hN hn hG hp2 hm) hd (by rw [hprod]; exact hinf)
    (by rw [hprod]; exact le_ceil_toNat (by exact_mod_cast hmb)) hw
  have hcomps : c.base.infra.comps = m.comps := by rw [e1]
  refine ⟨(c.disk, Function.update W.2 (some q) { W.2 (some q) with
    varis := some (pfStored (pfCfgIn N m (ext p) nodes (fun k => (c.pf.lookup k).getD 0) inf
      mb.ceil.toNat w) done), result := some lines }), lines, fun k => (c.pf.lookup k).getD 0, ?_, e4, ?_, ?_, ?_, ?_, hp1, l2, ?_⟩
  · unfold pfMain
    rw [hc, ok_bind, hi, ok_bind, hcomps, l1, ok_bind, e3]
    rfl
  · intro o ho
    exact Function.update_of_ne ho _ _
  · simp
  · simp only [Function.update_self]
    exact ⟨_, rfl, fun a ha => pfStored_road h hd.symm.subset ha⟩
  · simp
  · intro l hl
    obtain ⟨a1, a2, a3, a4⟩ := l3 l hl
    refine ⟨a1, a2, fun t ht => ?_, fun hno => a4 fun d hdm => ?_⟩
    · have := a3 t ((intact_in hn).2 ht)
      rw [hst] at this
      simp only [reaches_in hn (pf' := fun k => (c.pf.lookup k).getD 0) (a' := 0) (b' := 0) (v' := 0)] at this
      exact this
    · rintro ⟨es, ns, hr⟩
      exact hno d hdm ⟨es, ns, (route_nodes hn).1 hr⟩

open Classical in
/-- **C96, `main` with limits**: a map that is written has a line for each node that is neither the
epicentre nor an origin, with bounds that enclose the probability. -/
theorem C96_main_sound (hlib : PathLibOK lib)
    (h : PfFileOK nSf nWr nCov W.1.files ext data p q m mb w sf cov) (hN : PfNumOK N m) {eqName : K}
    {x0 y0 Mw : ℝ} (heq : (ext p).eq.lookup eqName = some ([x0, y0], Mw)) (h6 : 6 ≤ Mw) (h8 : Mw ≤ 8.5)
    {done : List K} (hd : ∀ n ∈ done, n ∈ m.comps.map Prod.fst)
    (hsf : sf = .empty ∨ sf = .null ∨ ∃ n : ℚ, sf = .num n ∧ 0 ≤ n) (hinf : 0 < inf) {W' : PfWorld K}
    (hm : pfMain lib N inf nSf nWr nCov epi ext data eqName done W = .ok W') :
    ∃ lines pf, W'.1.files = W.1.files ∧ (∀ o, o ≠ some q → W'.2 o = W.2 o) ∧
      (W'.2 (some q)).mcs = (W.2 (some q)).mcs ∧ RoadsStored N m (W'.2 (some q)) ∧
      (W'.2 (some q)).result = some lines ∧
      (∀ c ∈ m.conns, RoadProb N m (ext p) x0 y0 Mw c (pf c.1)) ∧
      lines.map NodeLine.node =
        (m.comps.map Prod.fst).filter (fun n => n ≠ epi ∧ n ∉ (ext p).dests) ∧
      ∀ l ∈ lines, l.nsamp = 0 ∧ ∀ t, IntactTime (pfCfgOf N m (ext p) pf 0 0 0) l.node t →
          l.low ≤ probOf (m.conns.map fun c => (c.1, 2)) (pfCfgOf N m (ext p) pf 0 0 0).probs
            (fun x => ¬ Reaches (pfCfgOf N m (ext p) pf 0 0 0) l.node ((ext p).thres * t) x) ∧
          probOf (m.conns.map fun c => (c.1, 2)) (pfCfgOf N m (ext p) pf 0 0 0).probs
            (fun x => ¬ Reaches (pfCfgOf N m (ext p) pf 0 0 0) l.node ((ext p).thres * t) x) ≤ l.up := by
  obtain ⟨c, nodes, hc, hn, hG, e1, e2, e3, e4, e5, e6, -, e7, e8, e9⟩ := pfConfig_ok (N := N) h heq h6 h8
  obtain ⟨hp1, hp2⟩ := pf_probs (pf := c.pf) hN e9
  obtain ⟨a, hmax, ha⟩ : ∃ a, flowLimit inf c.maxSf = .ok a ∧ 0 < a := by
    rw [e5]
    rcases hsf with rfl | rfl | ⟨n, rfl, hn0⟩
    · exact ⟨inf, rfl, hinf⟩
    · exact ⟨inf, rfl, hinf⟩
    · by_cases h0 : n = 0
      · subst h0
        exact ⟨inf, rfl, hinf⟩
      · refine ⟨n.ceil.toNat, ?_, ?_⟩
        · have : (CfgVal.num n : CfgVal K).truthy = true := by simp [CfgVal.truthy, h0]
          rw [if_pos this]
          rfl
        · have h1 : 0 < n := lt_of_le_of_ne hn0 (Ne.symm h0)
          have h2 : n ≤ n.ceil := Rat.le_ceil
          have : (0 : ℚ) < n.ceil := lt_of_lt_of_le h1 h2
          have : 0 < n.ceil := by exact_mod_cast this
          omega
  have hi := pfInput_eq (N := N) h e1 e2 e6 e7 hmax
  have hok := pfCfgIn_ok (pf := fun k => (c.pf.lookup k).getD 0) h hN hn hG hp2 (a := a) (b := mb.ceil.toNat) (v := w)
  have hst := pfCfgIn_states (pf := fun k => (c.pf.lookup k).getD 0) h hN hn hG hp2 (a := a) (b := mb.ceil.toNat) (v := w)
  have hcomps : c.base.infra.comps = m.comps := by rw [e1]
  unfold pfMain at hm
  rw [hc, ok_bind, hi, ok_bind, hcomps, bind_ok] at hm
  obtain ⟨lines, l1, hm⟩ := hm
  rw [e3] at hm
  cases hm
  obtain ⟨l2, l3⟩ := C92_map_sound hlib hok (fun n hm => pfCfgIn_node (pf := fun k => (c.pf.lookup k).getD 0) h hN hn hG hp2 hm) ha l1
  refine ⟨lines, fun k => (c.pf.lookup k).getD 0, e4, ?_, ?_, ?_, ?_, hp1, l2, ?_⟩
  · intro o ho
    exact Function.update_of_ne ho _ _
  · simp
  · simp only [Function.update_self]
    exact ⟨_, rfl, fun a ha => pfStored_road h hd ha⟩
  · simp
  · intro l hl
    obtain ⟨a1, a3⟩ := l3 l hl
    refine ⟨a1, fun t ht => ?_⟩
    have := a3 t ((intact_in hn).2 ht)
    rw [hst] at this
    simp only [reaches_in hn (pf' := fun k => (c.pf.lookup k).getD 0) (a' := 0) (b' := 0) (v' := 0)] at this
    exact this

/-- **C96, `run_MCS`** after `main` has stored the roads (`main` may have been run with another
earthquake), for a node that is no origin and has a way to one, with a road state drawn for each road and
iteration (`xs`).  It returns exactly if there is a number `n` of vectors, within the time given, such
that the last of them cuts the node off, more than five of them do and the coefficient of variation is at
most 0.01 — and one of the first 20000 does.  Then it stores, for the first such `n`, the share of the
vectors that cut the node off, the square of the coefficient of variation and `n`, and nothing else is
changed.  The target `MCS_COV` of the configuration file plays no role. -/
theorem C96_mcs (hlib : PathLibOK lib)
    (h : PfFileOK nSf nWr nCov W.1.files ext data p q m mb w sf cov) (hN : PfNumOK N m) {eqName : K}
    {x0 y0 Mw : ℝ} (heq : (ext p).eq.lookup eqName = some ([x0, y0], Mw)) (h6 : 6 ≤ Mw) (h8 : Mw ≤ 8.5)
    (hs : RoadsStored N m (W.2 (some q))) :
    ∃ (pf : K → ℝ) (disk : Disk K), (∀ c ∈ m.conns, RoadProb N m (ext p) x0 y0 Mw c (pf c.1)) ∧
      disk.files = W.1.files ∧
      ∀ (S : PfCfg K), S = pfCfgOf N m (ext p) pf 0 0 0 → ∀ node ∈ m.comps.map Prod.fst,
      node ∉ (ext p).dests → ∀ t, IntactTime S node t → ∀ r, Uniform r →
      (∃! xs, Drawn (pfDraws N m pf) r xs) ∧ ∀ xs, Drawn (pfDraws N m pf) r xs →
      (∀ fuel W', pfMcs lib N nSf nWr nCov ext data eqName node r fuel W = .ok W' ↔
        ∃ n k, n ≤ fuel ∧ CutStop S node ((ext p).thres * t) xs n ∧
          (∀ j < n, ¬ CutStop S node ((ext p).thres * t) xs j) ∧
          (20000 ≤ n → 0 < nCut S node ((ext p).thres * t) xs 20000) ∧
          k = nCut S node ((ext p).thres * t) xs n ∧
          W' = (disk, Function.update W.2 (some q) { W.2 (some q) with
            mcs := itemSet (W.2 (some q)).mcs (node, eqName)
              ((k : ℚ) / n, (1 - (k : ℚ) / n) / k, n) })) ∧
      (∀ n, 10000 ≤ nCut S node ((ext p).thres * t) xs n →
        (20000 ≤ n → 0 < nCut S node ((ext p).thres * t) xs 20000) →
        ∃ W', pfMcs lib N nSf nWr nCov ext data eqName node r n W = .ok W') ∧
      ((∀ i < 20000, Reaches S node ((ext p).thres * t) (xs i)) → ∀ fuel, 20000 ≤ fuel →
        pfMcs lib N nSf nWr nCov ext data eqName node r fuel W = .error .unbound) := by
  obtain ⟨disk, nodes, pf, vs, hdf, hp1, hn, hok, hnode, hst, hp2, hsys, hmcs⟩ :=
    pfMcs_parts (lib := lib) h hN heq h6 h8 hs
  refine ⟨pf, disk, hp1, hdf, fun S hS node hm hnd t ht r hr => ?_⟩
  subst hS
  have hok' : IndepOK (pfDraws N m pf) := pfDraws_ok h hp2 _ _
  refine ⟨(C68_draw hok' hr).2.1, fun xs hx => ?_⟩
  have ht' : IntactTime (pfCfgIn N m (ext p) nodes pf 0 0 0) node t := (intact_in hn).2 ht
  have hpos := IntactTime.pos hok hnd ht'
  have hth : 0 < (ext p).thres * t := mul_pos h.thres hpos
  have h0 : ((some t).map ((ext p).thres * ·)) ≠ some 0 := by simpa using hth.ne'
  obtain ⟨p', q', hfound⟩ := intact_found hlib hok (hnode node hm) ht'
  set c : IndepCfg K := { pfDraws N m pf with
    sysFun := pfMcsSys lib { fileGraph m with nodes := nodes } (ext p).dests (ext p).thres node vs
      (m.conns.map fun c => (c.1, 2)) (some t)
    covT := 1 / 100 } with hcdef
  have hrun : ∀ fuel, pfMcs lib N nSf nWr nCov ext data eqName node r fuel W = (do
      let res ← runMcsIndep c r fuel
      return (disk, Function.update W.2 (some q)
        { W.2 (some q) with mcs := itemSet (W.2 (some q)).mcs (node, eqName) res })) := by
    intro fuel
    rw [hmcs, hfound, ok_bind]
    simp only
    rw [if_neg h0]
  have hc : IndepOK c := pfDraws_ok h hp2 _ _
  have hxc : Drawn c r xs := hx
  have hst2 : ∀ i, (c.sysFun (xs i)).st = .f ↔
      ¬ Reaches (pfCfgIn N m (ext p) nodes pf 0 0 0) node ((ext p).thres * t) (xs i) := by
    classical
    intro i
    have hcfg := nodeCfg_ok hlib hok (hnode node hm) hpos
      (Φ := fun x => decide (Reaches (pfCfgIn N m (ext p) nodes pf 0 0 0) node
        ((pfCfgIn N m (ext p) nodes pf 0 0 0).thres * t) x)) (fun x => by simp)
    have hin : InSpace (statesOf (pfCfgIn N m (ext p) nodes pf 0 0 0).varis) (xs i) := by
      rw [hst]
      intro kn hkn
      obtain ⟨a, ha, rfl⟩ := List.mem_map.1 hkn
      have := (C68_draw hok' hr).2.2 xs hx i a.1 (List.mem_map_of_mem ha)
      simp only [pfDraws, List.mem_cons, List.not_mem_nil, or_false] at this
      simp only
      omega
    have h1 := hcfg.sys.st (xs i) hin
    rw [show (c.sysFun (xs i)).st = (nodeSysFun lib (pfCfgIn N m (ext p) nodes pf 0 0 0).G
      (pfCfgIn N m (ext p) nodes pf 0 0 0).dests (pfCfgIn N m (ext p) nodes pf 0 0 0).thres node
      (pfCfgIn N m (ext p) nodes pf 0 0 0).varis (some t) (xs i)).st from
        congrArg SysRes.st (hsys node (some t) (xs i) h0)]
    rw [show (nodeSysFun lib (pfCfgIn N m (ext p) nodes pf 0 0 0).G
      (pfCfgIn N m (ext p) nodes pf 0 0 0).dests (pfCfgIn N m (ext p) nodes pf 0 0 0).thres node
      (pfCfgIn N m (ext p) nodes pf 0 0 0).varis (some t) (xs i)).st = _ from h1]
    by_cases hR : Reaches (pfCfgIn N m (ext p) nodes pf 0 0 0) node
        ((pfCfgIn N m (ext p) nodes pf 0 0 0).thres * t) (xs i)
    · rw [if_pos (by simpa using hR)]
      exact ⟨fun e => (by cases e), fun e => absurd hR e⟩
    · rw [if_neg (by simpa using hR)]
      exact ⟨fun _ => hR, fun _ => rfl⟩
  have hSS : ∀ x, Reaches (pfCfgIn N m (ext p) nodes pf 0 0 0) node ((ext p).thres * t) x ↔
      Reaches (pfCfgOf N m (ext p) pf 0 0 0) node ((ext p).thres * t) x := fun x => reaches_in hn
  have hcut := nFail_cut (c := c) hst2 hSS
  have hstop : ∀ n, StopAt c xs n ↔ CutStop (pfCfgOf N m (ext p) pf 0 0 0) node ((ext p).thres * t) xs n := by
    intro n
    unfold StopAt CutStop
    refine exists_congr fun j => and_congr_right fun _ => ?_
    rw [hst2, hSS, hcut]
  have hres := fun fuel n a b => C68_result hc hr hxc (by norm_num [hcdef]) (by norm_num [hcdef])
    (fuel := fuel) (n := n) (pf := a) (cov2 := b)
  simp only [hstop, hcut] at hres
  refine ⟨fun fuel W' => ?_, fun n hn1 hn2 => ?_, fun hno fuel hfu => ?_⟩
  · rw [hrun, bind_ok]
    constructor
    · rintro ⟨⟨a, b, n⟩, h1, h2⟩
      obtain ⟨g1, g2, g3, g4, g5, g6⟩ := (hres fuel n a b).1 h1
      cases h2
      subst g5
      subst g6
      exact ⟨n, _, g1, g2, g3, g4, rfl, rfl⟩
    · rintro ⟨n, k, g1, g2, g3, g4, rfl, rfl⟩
      exact ⟨_, (hres fuel n _ _).2 ⟨g1, g2, g3, g4, rfl, rfl⟩, rfl⟩
  · rw [← hcut] at hn1
    obtain ⟨a, b, k, h1, -⟩ := C68_terminates hc hr hxc (by norm_num [hcdef]) (by norm_num [hcdef]) (n := n)
      (by omega) (by
        have : (10000 : ℚ) ≤ nFail c xs n := by exact_mod_cast hn1
        show (1 : ℚ) ≤ nFail c xs n * (1 / 100) ^ 2
        linarith) (by rw [hcut]; exact hn2)
    exact ⟨_, by rw [hrun, h1]; rfl⟩
  · rw [hrun, C68_not_rare hc hr hxc (by norm_num [hcdef]) (by norm_num [hcdef]) ?_ hfu]
    · rfl
    · intro i hi hf
      exact (hst2 i).1 hf ((hSS _).2 (hno i hi))

/-- **C96, `run_MCS` at an origin** raises `KeyError`: the time to the nearest origin is 0, and a
threshold of 0 is none. -/
theorem C96_not_mcs_origin (hlib : PathLibOK lib)
    (h : PfFileOK nSf nWr nCov W.1.files ext data p q m mb w sf cov) (hN : PfNumOK N m) {eqName : K}
    {x0 y0 Mw : ℝ} (heq : (ext p).eq.lookup eqName = some ([x0, y0], Mw)) (h6 : 6 ≤ Mw) (h8 : Mw ≤ 8.5)
    (hs : RoadsStored N m (W.2 (some q))) {node : K} (hd : node ∈ (ext p).dests) {r : ℕ → ℕ → ℚ}
    (hr : Uniform r) (fuel : ℕ) :
    pfMcs lib N nSf nWr nCov ext data eqName node r fuel W = .error .key := by
  obtain ⟨disk, nodes, pf, vs, hdf, hp1, hn, hok, hnode, hst, hp2, hsys, hmcs⟩ :=
    pfMcs_parts (lib := lib) h hN heq h6 h8 hs
  have hm : node ∈ m.comps.map Prod.fst := by
    obtain ⟨e, he, rfl⟩ := List.mem_map.1 hd
    exact h.originNodes e he
  rcases timeAndPathMulti_ok hlib hok.graph hok.simple hok.undirected hok.times hok.ne (hnode node hm).1
    hok.destNodes hok.dests hok.inSpace with ⟨hno, -⟩ | ⟨d, hdm, es, ns, h1, h2, h3⟩
  · exact absurd ⟨[], [node], Route.nil (hnode node hm).1⟩ (hno node hd)
  · have hz : routeTime (pfCfgIn N m (ext p) nodes pf 0 0 0).varis
        (intactState (pfCfgIn N m (ext p) nodes pf 0 0 0).varis) es = 0 := by
      refine le_antisymm ?_ ?_
      · exact (h3 node hd [] [node] (Route.nil (hnode node hm).1)).trans (by simp [routeTime])
      · refine List.sum_nonneg fun y hy => ?_
        obtain ⟨e, -, rfl⟩ := List.mem_map.1 hy
        exact timeOf_nonneg hok.times _ _
    rw [hmcs, h2, ok_bind]
    simp only [hz, Option.map_some, mul_zero, if_true]
    obtain ⟨xs, hx, -⟩ := (C68_draw (pfDraws_ok h hp2 (pfMcsSys lib { fileGraph m with nodes := nodes }
      (ext p).dests (ext p).thres node vs (m.conns.map fun c => (c.1, 2)) (some 0)) (1 / 100)) hr).2.1
    rw [indepDraw_eq (pfDraws_ok h hp2 _ _) hr hx 0, ok_bind]

/-- **C96, `run_MCS` at a node without any way to an origin** raises `UnboundLocalError` at the 20000th
sample: the allowed time is infinite, no sample fails. -/
theorem C96_not_mcs_unreachable (hlib : PathLibOK lib)
    (h : PfFileOK nSf nWr nCov W.1.files ext data p q m mb w sf cov) (hN : PfNumOK N m) {eqName : K}
    {x0 y0 Mw : ℝ} (heq : (ext p).eq.lookup eqName = some ([x0, y0], Mw)) (h6 : 6 ≤ Mw) (h8 : Mw ≤ 8.5)
    (hs : RoadsStored N m (W.2 (some q))) {node : K} (hm : node ∈ m.comps.map Prod.fst)
    (hno : ∀ d ∈ (ext p).dests, ¬ ∃ es ns, Route (fileGraph m) node es ns d) {r : ℕ → ℕ → ℚ}
    (hr : Uniform r) {fuel : ℕ} (hfu : 20000 ≤ fuel) :
    pfMcs lib N nSf nWr nCov ext data eqName node r fuel W = .error .unbound := by
  obtain ⟨disk, nodes, pf, vs, hdf, hp1, hn, hok, hnode, hst, hp2, hsys, hmcs⟩ :=
    pfMcs_parts (lib := lib) h hN heq h6 h8 hs
  have hno' : ∀ d ∈ (pfCfgIn N m (ext p) nodes pf 0 0 0).dests,
      ¬ ∃ es ns, Route (pfCfgIn N m (ext p) nodes pf 0 0 0).G node es ns d := by
    rintro d hd ⟨es, ns, hr⟩
    exact hno d hd ⟨es, ns, (route_nodes hn).1 hr⟩
  rcases timeAndPathMulti_ok hlib hok.graph hok.simple hok.undirected hok.times hok.ne (hnode node hm).1
    hok.destNodes hok.dests hok.inSpace with ⟨-, h2⟩ | ⟨d, hdm, es, ns, h1, -⟩
  · have hok' : IndepOK (pfDraws N m pf) := pfDraws_ok h hp2 _ _
    obtain ⟨xs, hx, -⟩ := (C68_draw hok' hr).2.1
    rw [hmcs, h2, ok_bind]
    simp only [Option.map_none]
    rw [if_neg (by simp), C68_not_rare (c := { pfDraws N m pf with
      sysFun := pfMcsSys lib { fileGraph m with nodes := nodes } (ext p).dests (ext p).thres node vs
        (m.conns.map fun c => (c.1, 2)) none
      covT := 1 / 100 }) (pfDraws_ok h hp2 _ _) hr hx (by norm_num) (by norm_num) ?_ hfu]
    · rfl
    · intro i _
      have hin : InSpace (statesOf (pfCfgIn N m (ext p) nodes pf 0 0 0).varis) (xs i) := by
        rw [hst]
        intro kn hkn
        obtain ⟨a, ha, rfl⟩ := List.mem_map.1 hkn
        have := (C68_draw hok' hr).2.2 xs hx i a.1 (List.mem_map_of_mem ha)
        simp only [pfDraws, List.mem_cons, List.not_mem_nil, or_false] at this
        simp only
        omega
      have hsysst := (nodeCfg_ok_none hlib hok (hnode node hm) hno').sys.st (xs i) hin
      have heq' := congrArg SysRes.st (hsys node none (xs i) (by simp))
      simp only
      rw [heq']
      intro hf
      rw [show (nodeSysFun lib (pfCfgIn N m (ext p) nodes pf 0 0 0).G
        (pfCfgIn N m (ext p) nodes pf 0 0 0).dests (pfCfgIn N m (ext p) nodes pf 0 0 0).thres node
        (pfCfgIn N m (ext p) nodes pf 0 0 0).varis none (xs i)).st = _ from hsysst] at hf
      cases hf
  · exact absurd ⟨es, ns, h1⟩ (hno' d hdm)

/-- **C96, `run_MCS` needs `main`**: without the file that `main` writes it ends with
`FileNotFoundError`. -/
theorem C96_mcs_needs_main (h : PfFileOK nSf nWr nCov W.1.files ext data p q m mb w sf cov) {eqName : K}
    {x0 y0 Mw : ℝ} (heq : (ext p).eq.lookup eqName = some ([x0, y0], Mw)) (h6 : 6 ≤ Mw) (h8 : Mw ≤ 8.5)
    (hs : (W.2 (some q)).varis = none) (node : K) (r : ℕ → ℕ → ℚ) (fuel : ℕ) :
    pfMcs lib N nSf nWr nCov ext data eqName node r fuel W = .error .graph := by
  obtain ⟨c, nodes, hc, -, -, -, -, e3, -⟩ := pfConfig_ok (N := N) h heq h6 h8
  unfold pfMcs
  rw [hc, ok_bind, e3]
  simp only [hs]

/-- **C96, missing entries.**  `MAX_SYS_FUN`, `SYS_BND_WIDTH_RATIO` and `MCS_COV` are not among the
entries that are checked, but without one of them every command raises `KeyError`. -/
theorem C96_missing_entry {cfg : Cfg K} {disk' : Disk K} (h : Cfg.new W.1 data = .ok (cfg, disk'))
    (hn : cfg.data.lookup (.other nSf) = none ∨ cfg.data.lookup (.other nWr) = none ∨
      cfg.data.lookup (.other nCov) = none) (eqName node : K) (done : List K) (r : ℕ → ℕ → ℚ) (fuel : ℕ) :
    pfMain lib N inf nSf nWr nCov epi ext data eqName done W = .error .key ∧
    pfMcs lib N nSf nWr nCov ext data eqName node r fuel W = .error .key ∧
    pfSingle lib N inf nSf nWr nCov ext data eqName node W = .error .key := by
  have hc : pfConfig N nSf nWr nCov W.1 ext data eqName = .error .key := by
    unfold pfConfig
    simp only [h, ok_bind]
    cases h1 : cfg.data.lookup (.other nSf) with
    | none => rw [itemsGet_none h1]; rfl
    | some v =>
      rw [itemsGet_some h1, ok_bind]
      cases h2 : cfg.data.lookup (.other nWr) with
      | none => rw [itemsGet_none h2]; rfl
      | some v =>
        rw [itemsGet_some h2, ok_bind]
        rw [h1, h2] at hn
        have h3 := hn.resolve_left (by simp)
        rw [itemsGet_none (h3.resolve_left (by simp))]
        rfl
  refine ⟨?_, ?_, ?_⟩
  · unfold pfMain; rw [hc]; rfl
  · unfold pfMcs; rw [hc]; rfl
  · unfold pfSingle; rw [hc]; rfl

/-- **C96, the earthquake.**  An earthquake that the model file does not list is a `KeyError` in every
command; none returns if its magnitude is outside the range of the ground motion model. -/
theorem C96_earthquake (h : PfFileOK nSf nWr nCov W.1.files ext data p q m mb w sf cov) (eqName : K) :
    ((ext p).eq.lookup eqName = none → ∀ node done r fuel,
      pfMain lib N inf nSf nWr nCov epi ext data eqName done W = .error .key ∧
      pfMcs lib N nSf nWr nCov ext data eqName node r fuel W = .error .key ∧
      pfSingle lib N inf nSf nWr nCov ext data eqName node W = .error .key) ∧
    ∀ e Mw, (ext p).eq.lookup eqName = some (e, Mw) → ¬ (6 ≤ Mw ∧ Mw ≤ 8.5) →
      ∀ node done r fuel W',
        pfMain lib N inf nSf nWr nCov epi ext data eqName done W ≠ .ok W' ∧
        pfMcs lib N nSf nWr nCov ext data eqName node r fuel W ≠ .ok W' ∧
        pfSingle lib N inf nSf nWr nCov ext data eqName node W ≠ .ok W' := by
  obtain ⟨R, f, hR, hnd, heq⟩ := pfConfig_eq (N := N) h eqName
  constructor
  · intro h0 node done r fuel
    have hc : pfConfig N nSf nWr nCov W.1 ext data eqName = .error .key := by
      rw [heq]
      unfold calEdgeDistOutput
      rw [hR, itemsGet_none h0]
      rfl
    refine ⟨?_, ?_, ?_⟩
    · unfold pfMain; rw [hc]; rfl
    · unfold pfMcs; rw [hc]; rfl
    · unfold pfSingle; rw [hc]; rfl
  · intro e Mw h0 hMw node done r fuel W'
    have hc : ∀ c, pfConfig N nSf nWr nCov W.1 ext data eqName ≠ .ok c := by
      intro c hc
      rw [heq, bind_ok] at hc
      obtain ⟨o, ho, -⟩ := hc
      obtain ⟨e', Mw', g1, g2, g3, -⟩ := C85_roads hnd ho
      rw [hR, h0] at g1
      cases g1
      exact hMw ⟨g2, g3⟩
    refine ⟨fun hm => ?_, fun hm => ?_, fun hm => ?_⟩
    · unfold pfMain at hm
      obtain ⟨c, hm, -⟩ := bind_ok.1 hm
      exact hc c hm
    · unfold pfMcs at hm
      obtain ⟨c, hm, -⟩ := bind_ok.1 hm
      exact hc c hm
    · unfold pfSingle at hm
      obtain ⟨c, hm, -⟩ := bind_ok.1 hm
      exact hc c hm

/-- **C96, `run_single`** stores nothing. -/
theorem C96_not_single {eqName node : K} {W' : PfWorld K}
    (hm : pfSingle lib N inf nSf nWr nCov ext data eqName node W = .ok W') : W'.2 = W.2 := by
  unfold pfSingle at hm
  obtain ⟨c, -, hm⟩ := bind_ok.1 hm
  obtain ⟨i, -, hm⟩ := bind_ok.1 hm
  obtain ⟨o, -, hm⟩ := bind_ok.1 hm
  cases hm
  rfl

/-- One call of `run_MCS` changes at most the entry of its node and earthquake. -/
theorem pfMcs_keeps {eqName node : K} {r : ℕ → ℕ → ℚ} {fuel : ℕ} {W' : PfWorld K}
    (hm : pfMcs lib N nSf nWr nCov ext data eqName node r fuel W = .ok W') (o : Option K) :
    (W'.2 o).varis = (W.2 o).varis ∧ (W'.2 o).result = (W.2 o).result ∧
      ∀ e, e ≠ (node, eqName) → (W'.2 o).mcs.lookup e = (W.2 o).mcs.lookup e := by
  unfold pfMcs at hm
  obtain ⟨c, -, hm⟩ := bind_ok.1 hm
  split at hm
  · cases hm
  · obtain ⟨t, -, hm⟩ := bind_ok.1 hm
    split at hm
    · obtain ⟨_, -, hm⟩ := bind_ok.1 hm
      cases hm
    · obtain ⟨res, -, hm⟩ := bind_ok.1 hm
      cases hm
      by_cases ho : o = c.base.outputPath
      · subst ho
        simp only [Function.update_self, true_and]
        intro e he
        rw [lawful_beq_subsingleton (instBEqProd : BEq (K × K)) instBEqOfDecidableEq, lookup_itemSet,
          if_neg he]
      · simp only [Function.update_of_ne ho, true_and, implies_true]

/-- **C96, `batch_comp`** leaves the map and the roads of every directory, and the simulation results of
all other nodes and earthquakes.  If a call raises, the calls after it are not made, and the results
stored before stay as they are. -/
theorem C96_batch (calls : List ((K × K) × (ℕ → ℕ → ℚ))) (fuel : ℕ) (o : Option K) :
    (((pfBatch lib N nSf nWr nCov ext data fuel calls W).1.2 o).varis = (W.2 o).varis ∧
      ((pfBatch lib N nSf nWr nCov ext data fuel calls W).1.2 o).result = (W.2 o).result ∧
      ∀ e, e ∉ calls.map Prod.fst →
        ((pfBatch lib N nSf nWr nCov ext data fuel calls W).1.2 o).mcs.lookup e = (W.2 o).mcs.lookup e) ∧
    ∀ e, (pfBatch lib N nSf nWr nCov ext data fuel calls W).2 = some e →
      ∃ before a after W1, calls = before ++ a :: after ∧
        pfBatch lib N nSf nWr nCov ext data fuel before W = (W1, none) ∧
        pfMcs lib N nSf nWr nCov ext data a.1.2 a.1.1 a.2 fuel W1 = .error e ∧
        (pfBatch lib N nSf nWr nCov ext data fuel calls W).1 = W1 := by
  induction calls generalizing W with
  | nil => exact ⟨⟨rfl, rfl, fun _ _ => rfl⟩, fun e he => by cases he⟩
  | cons a l ih =>
    cases hm : pfMcs lib N nSf nWr nCov ext data a.1.2 a.1.1 a.2 fuel W with
    | error e =>
      simp only [pfBatch, hm]
      refine ⟨⟨trivial, trivial, fun _ _ => trivial⟩, fun e' he => ?_⟩
      cases he
      exact ⟨[], a, l, W, rfl, rfl, hm, rfl⟩
    | ok W1 =>
      simp only [pfBatch, hm]
      obtain ⟨k1, k2, k3⟩ := pfMcs_keeps hm o
      obtain ⟨⟨i1, i2, i3⟩, i4⟩ := ih (W := W1)
      refine ⟨⟨i1.trans k1, i2.trans k2, fun e he => ?_⟩, fun e he => ?_⟩
      · simp only [List.map_cons, List.mem_cons, not_or] at he
        exact (i3 e he.2).trans (k3 e he.1)
      · obtain ⟨before, b, after, W2, j1, j2, j3, j4⟩ := i4 e he
        refine ⟨a :: before, b, after, W2, by rw [j1]; rfl, ?_, j3, j4⟩
        simp only [pfBatch, hm]
        exact j2

end

/-! ## An example: three roads between the nodes 0, 1 and 2; node 3 is on its own -/

namespace PfEx2

/-- Names: roads 10 to 12, fragility type 50, earthquake 60, directory 70, model file 80. -/
def net : NetJson ℕ where
  comps := [(0, 0, 0), (1, 60, 0), (2, 0, 80), (3, 500, 500)]
  conns := [(10, 0, 1, 60), (11, 0, 2, 80), (12, 2, 1, 100)]
  ods := []
  gtype := none

noncomputable def ext : ℕ → PfExt ℕ := fun _ =>
  { origins := [(1, 0)], eq := [(60, [30, 20], 7), (61, [30, 20], 5)], frag := [(50, [0.3, 0.5, 0.8, 1], 0.6)]
    thres := 3, frags := [(10, 50), (11, 50), (12, 50)] }

def disk : Disk ℕ := { files := fun k => if k = 80 then some (.model net) else none, dirs := fun _ => false }

/-- `MAX_SYS_FUN` is entry 20, `SYS_BND_WIDTH_RATIO` entry 21, `MCS_COV` entry 22. -/
def cdata (sf cov : CfgVal ℕ) : List (CfgKey ℕ × CfgVal ℕ) :=
  [(.modelName, .text 80), (.maxBranches, .num 1500), (.configurationId, .text 12),
    (.outputPath, .text 70), (.scenarioName, .null), (.other 20, sf), (.other 21, .num 0), (.other 22, cov)]

/-- Rounding down to thousandths. -/
noncomputable def num : PfNum where
  bis := fun _ _ _ _ _ => 0
  cdf := fun _ μ _ => if μ < 0 then 9 / 10 else 1 / 10
  rnd := fun x => (⌊x * 1000⌋ : ℚ) / 1000
  far := 1000000

theorem hours (a b : ℚ × ℚ) (l : ℕ) (h : ((a.1 : ℝ) - b.1) ^ 2 + ((a.2 : ℝ) - b.2) ^ 2 = (10 * l : ℝ) ^ 2) :
    roadHours num a b = l / 10 := by
  unfold roadHours
  rw [h, Real.sqrt_sq (by positivity)]
  show (⌊(10 * l : ℝ) / 100 * 1000⌋ : ℚ) / 1000 = l / 10
  have : (10 * l : ℝ) / 100 * 1000 = ((100 * l : ℕ) : ℝ) := by push_cast; ring
  rw [this, Int.floor_natCast]
  push_cast
  ring

theorem place : placeOf net 0 = (0, 0) ∧ placeOf net 1 = (60, 0) ∧ placeOf net 2 = (0, 80) := by
  decide +kernel

theorem hours_all : ∀ c ∈ net.conns, roadHours num (placeOf net c.2.1) (placeOf net c.2.2.1) =
    if c.1 = 10 then 6 / 10 else if c.1 = 11 then 8 / 10 else 1 := by
  intro c hc
  simp only [net, List.mem_cons, List.not_mem_nil, or_false] at hc
  rcases hc with rfl | rfl | rfl
  · exact (hours _ _ 6 (by simp only [place]; norm_num)).trans (by norm_num)
  · exact (hours _ _ 8 (by simp only [place]; norm_num)).trans (by norm_num)
  · exact (hours _ _ 10 (by simp only [place]; norm_num)).trans (by norm_num)

theorem file_ok (sf cov : CfgVal ℕ) :
    PfFileOK 20 21 22 disk.files ext (cdata sf cov) 80 70 net 1500 0 sf cov where
  model := rfl
  file := rfl
  scen := ⟨_, rfl, .inr (.inl rfl)⟩
  id := ⟨_, rfl⟩
  branches := rfl
  out := rfl
  sf := rfl
  wr := rfl
  cov := rfl
  gtype := .inl rfl
  noParallel := by
    simp only [NoParallel, net, List.pairwise_cons, List.mem_cons, ConnLinks]
    refine ⟨?_, ?_, ?_, List.Pairwise.nil⟩
    · simp; refine ⟨fun u v => ?_, fun u v => ?_⟩ <;> omega
    · simp; intro u v; omega
    · simp
  names := by decide
  ne := by simp [net]
  nodes := by decide
  ends := by decide +kernel
  apart := by decide
  frags := by
    intro c hc
    simp only [net, List.mem_cons, List.not_mem_nil, or_false] at hc
    rcases hc with rfl | rfl | rfl <;> exact ⟨50, _, _, rfl, rfl, by simp⟩
  origins := by simp [ext]
  originNodes := by simp [ext, net]
  thres := by simp [ext]

theorem num_ok : PfNumOK num net where
  cdf := by
    intro x μ σ
    simp only [num]
    split <;> norm_num
  rnd := by
    intro x h0 h1
    simp only [num]
    constructor
    · have : 0 ≤ ⌊x * 1000⌋ := Int.floor_nonneg.2 (by positivity)
      have : (0 : ℚ) ≤ ⌊x * 1000⌋ := by exact_mod_cast this
      positivity
    · rw [div_le_one (by norm_num)]
      have h2 : (⌊x * 1000⌋ : ℝ) ≤ x * 1000 := Int.floor_le _
      have h3 : (⌊x * 1000⌋ : ℝ) ≤ 1000 := by linarith
      exact_mod_cast h3
  times := by
    intro c hc
    rw [hours_all c hc]
    simp only [num]
    split
    · norm_num
    split <;> norm_num

/-- The hypotheses of `C96_main` and `C96_main_sound` are met: with exact bounds asked for, the map has
the exact probability for the nodes 1 and 2 and 0 for node 3. -/
example (cov : CfgVal ℕ) : ∃ W' lines, pfMain enumLib num 9 20 21 22 99 ext (cdata .null cov) 60 [3, 1, 0, 2]
      (disk, fun _ => {}) = .ok W' ∧ (W'.2 (some 70)).result = some lines ∧
    lines.map NodeLine.node = [1, 2, 3] ∧ RoadsStored num net (W'.2 (some 70)) ∧
    ∀ l ∈ lines, l.up ≤ l.low := by
  obtain ⟨W', lines, pf, h1, -, -, -, h2, h3, h5, h4, h6⟩ := C96_main (W := (disk, fun _ => {}))
    (epi := 99) (inf := 9) enumLib_ok (file_ok .null cov) num_ok (eqName := 60) (x0 := 30) (y0 := 20)
    (Mw := 7) rfl (by norm_num) (by norm_num) (done := [3, 1, 0, 2]) (by decide) (.inr (.inl rfl))
    (by decide) (by norm_num [net]) le_rfl
  refine ⟨W', lines, h1, h3, h4.trans (by simp [net, ext, PfExt.dests]), h2, fun l hl => ?_⟩
  have := (h6 l hl).2.1
  linarith

/-- The time from node 1 to the origin in the intact network is 0.6 hours. -/
theorem intact (pf : ℕ → ℝ) : IntactTime (pfCfgOf num net (ext 80) pf 0 0 0) 1 (6 / 10) := by
  have hmem : ∀ c ∈ net.conns, ∀ s, timeOf (pfCfgOf num net (ext 80) pf 0 0 0).varis c.1 s =
      ([1000000, if c.1 = 10 then 6 / 10 else if c.1 = 11 then 8 / 10 else 1] : List ℚ)[s]?.getD 0 := by
    intro c hc s
    have h1 : (c.1, Variable.mk' c.1 [num.far, roadHours num (placeOf net c.2.1) (placeOf net c.2.2.1)] .dflt) ∈
        (pfCfgOf num net (ext 80) pf 0 0 0).varis := List.mem_map.2 ⟨c, hc, rfl⟩
    rw [timeOf, lookup_mem_items (by simp [pfCfgOf, net]) h1, hours_all c hc]
    rfl
  refine ⟨fun _ => 1, ?_, ⟨0, by simp [pfCfgOf, PfExt.dests, ext],
    [⟨0, 1, .inl 0, 10, 60⟩], [1, 0], ?_, ?_⟩, ?_⟩
  · intro kv hkv
    obtain ⟨c, -, rfl⟩ := List.mem_map.1 hkv
    rfl
  · exact .cons (m := 0) (show 1 ∈ (fileGraph net).nodes by decide)
      (by simp [pfCfgOf, fileGraph, net]) (by simp [Links, pfCfgOf, fileGraph, net])
      (.nil (show 0 ∈ (fileGraph net).nodes by decide))
  · have := hmem (10, 0, 1, 60) (by simp [net]) 1
    simp only at this
    simp [routeTime, this]
  · intro d hd es ns hr
    have hd0 : d = 0 := by simpa [pfCfgOf, PfExt.dests, ext] using hd
    subst hd0
    have hall : ∀ e ∈ (fileGraph net).edges,
        6 / 10 ≤ timeOf (pfCfgOf num net (ext 80) pf 0 0 0).varis e.label 1 := by
      intro e he
      obtain ⟨c, hc, rfl⟩ := List.mem_map.1 he
      simp only [hmem c hc]
      simp only [List.getElem?_cons_succ, List.getElem?_cons_zero, Option.getD_some]
      split
      · norm_num
      split <;> norm_num
    have hes : ∀ {u v : ℕ} {es : List (NEdge ℕ)} {ns : List ℕ}, Route (fileGraph net) u es ns v →
        ∀ e ∈ es, e ∈ (fileGraph net).edges := by
      intro u v es ns hr
      induction hr with
      | nil _ => simp
      | cons _ he _ _ ih =>
        intro e' he'
        rcases List.mem_cons.1 he' with rfl | h
        · exact he
        · exact ih e' h
    have hin := hes hr
    cases hr with
    | cons hu he hl h' =>
      rw [routeTime, List.map_cons, List.sum_cons]
      refine le_add_of_le_of_nonneg (hall _ he) (List.sum_nonneg fun y hy => ?_)
      obtain ⟨e', he', rfl⟩ := List.mem_map.1 hy
      exact le_trans (by norm_num) (hall e' (hin e' (List.mem_cons_of_mem _ he')))

/-- After that `run_MCS` can be called (`C96_mcs`), with any target; at the origin it raises `KeyError`,
at node 3 `UnboundLocalError`; for the weak earthquake nothing returns. -/
example (cov : CfgVal ℕ) {W : PfWorld ℕ} (hW : W.1.files = disk.files)
    (hs : RoadsStored num net (W.2 (some 70))) {r : ℕ → ℕ → ℚ} (hr : Uniform r) :
    (∃ pf : ℕ → ℝ, (∀ c ∈ net.conns, RoadProb num net (ext 80) 30 20 7 c (pf c.1)) ∧
      ∀ xs, Drawn (pfDraws num net pf) r xs →
      (∀ i, ¬ Reaches (pfCfgOf num net (ext 80) pf 0 0 0) 1 (3 * (6 / 10)) (xs i)) →
      ∃ W', pfMcs enumLib num 20 21 22 ext (cdata .null cov) 60 1 r 10000 W = .ok W') ∧
    pfMcs enumLib num 20 21 22 ext (cdata .null cov) 60 0 r 100 W = .error .key ∧
    pfMcs enumLib num 20 21 22 ext (cdata .null cov) 60 3 r 20000 W = .error .unbound ∧
    (∀ W', pfMcs enumLib num 20 21 22 ext (cdata .null cov) 61 3 r 20000 W ≠ .ok W') ∧
    pfMcs enumLib num 20 21 22 ext (cdata .null cov) 62 3 r 20000 W = .error .key := by
  have hf : PfFileOK 20 21 22 W.1.files ext (cdata .null cov) 80 70 net 1500 0 .null cov := by
    rw [hW]; exact file_ok .null cov
  have heq : (ext 80).eq.lookup 60 = some ([30, 20], 7) := rfl
  refine ⟨?_, C96_not_mcs_origin enumLib_ok hf num_ok heq (by norm_num) (by norm_num) hs
    (by simp [ext, PfExt.dests]) hr _, C96_not_mcs_unreachable enumLib_ok hf num_ok heq (by norm_num)
    (by norm_num) hs (by simp [net]) ?_ hr le_rfl, fun W' => ?_, ?_⟩
  · obtain ⟨pf, d, h1, -, h2⟩ := C96_mcs enumLib_ok hf num_ok heq (by norm_num) (by norm_num) hs
    refine ⟨pf, h1, fun xs hx hall => ?_⟩
    obtain ⟨-, h3⟩ := h2 _ rfl 1 (by simp [net]) (by simp [ext, PfExt.dests]) _ (intact pf) r hr
    have hcut : ∀ n, nCut (pfCfgOf num net (ext 80) pf 0 0 0) 1 ((ext 80).thres * (6 / 10)) xs n = n := by
      intro n
      unfold nCut
      rw [List.countP_eq_length.2, List.length_range]
      intro i _
      simp only [decide_eq_true_eq]
      exact hall i
    exact (h3 xs hx).2.1 10000 (by rw [hcut]) (fun h => by omega)
  · rintro d hd ⟨es, ns, hrt⟩
    have hd0 : d = 0 := by simpa [PfExt.dests, ext] using hd
    subst hd0
    cases hrt with
    | cons hu he hl h' =>
      simp only [fileGraph, net, List.map_cons, List.map_nil, List.mem_cons, List.not_mem_nil, or_false] at he
      rcases he with rfl | rfl | rfl <;> simp [Links] at hl
  · exact ((C96_earthquake (lib := enumLib) (N := num) (inf := 9) (epi := 99) hf 61).2 [30, 20] 5 rfl
      (by norm_num) 3 [] r 20000 W').2.1
  · exact ((C96_earthquake (lib := enumLib) (N := num) (inf := 9) (epi := 99) hf 62).1 rfl 3 [] r 20000).2.1

end PfEx2

end BNS
