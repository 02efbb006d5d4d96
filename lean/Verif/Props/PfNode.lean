import Verif.Proofs.PfNode
import Verif.Props.BrcStop

/-!
# Property C92: the map of the probabilities that nodes are cut off (pf_map demo)
-/

namespace BNS

set_option linter.unusedSectionVars false

section
variable {K : Type} [DecidableEq K] {c : PfCfg K} {node : K}

theorem IntactTime.unique (h : RoadsOK c) {t t' : ℚ} (h1 : IntactTime c node t)
    (h2 : IntactTime c node t') : t = t' := by
  obtain ⟨x, hx, ⟨d, hd, es, ns, hr, rfl⟩, hmin⟩ := h1
  obtain ⟨y, hy, ⟨d', hd', es', ns', hr', rfl⟩, hmin'⟩ := h2
  have same : ∀ {u v : K} {es : List (NEdge K)} {ns : List K}, Route c.G u es ns v →
      routeTime c.varis x es = routeTime c.varis y es := by
    intro u v es ns hr
    unfold routeTime
    congr 1
    refine List.map_congr_left fun e he => ?_
    obtain ⟨kn, g1, g2⟩ := List.mem_map.1 (mem_names_of_label h.times hr e he)
    obtain ⟨kv, hkv, rfl⟩ := List.mem_map.1 g1
    simp only at g2
    have e1 := hx kv hkv
    have e2 := hy kv hkv
    rw [← g2, show x kv.1 = y kv.1 by omega]
  have a := hmin d' hd' es' ns' hr'
  have b := hmin' d hd es ns hr
  rw [same hr'] at a
  rw [same hr] at a
  rw [← same hr] at b
  rw [same hr] at b ⊢
  exact le_antisymm a b

theorem IntactTime.pos (h : RoadsOK c) (hd : node ∉ c.dests) {t : ℚ} (ht : IntactTime c node t) :
    0 < t := by
  obtain ⟨x, hx, ⟨d, hdm, es, ns, hr, rfl⟩, -⟩ := ht
  refine routeTime_pos h (fun kn hkn => ?_) hr fun e => hd (e ▸ hdm)
  obtain ⟨kv, hkv, rfl⟩ := List.mem_map.1 hkn
  have := hx kv hkv
  simp only
  omega

/-- The time the code finds in the intact network. -/
theorem intact_found {lib : PathLib K} (hlib : PathLibOK lib) (h : RoadsOK c) (hn : NodeOK c node) {t : ℚ}
    (ht : IntactTime c node t) : ∃ p q,
      timeAndPathMulti lib (compsOf (statesOf c.varis) (intactState c.varis)) c.G node c.dests
        c.varis = .ok (some t, p, q) := by
  rcases timeAndPathMulti_ok hlib h.graph h.simple h.undirected h.times h.ne hn.1 h.destNodes h.dests
    h.inSpace with ⟨hno, -⟩ | ⟨d, hdm, es, ns, h1, h2, h3⟩
  · obtain ⟨x, -, ⟨d, hdm, es, ns, hr, -⟩, -⟩ := ht
    exact absurd ⟨es, ns, hr⟩ (hno d hdm)
  · have := IntactTime.unique h ht ⟨_, intact_best h, ⟨d, hdm, es, ns, h1, rfl⟩, h3⟩
    subst this
    exact ⟨_, _, h2⟩

/-- A destination is never cut off from the destinations; it has no CPM and no line in the map. -/
theorem C92_destination (lib : PathLib K) (c : PfCfg K) (hd : node ∈ c.dests) :
    processNode lib c node = .ok { cpm := none, pf := 0, nsamp := 0, mon := [] } ∧
    ∀ th x, 0 ≤ th → (∀ d ∈ c.dests, d ∈ c.G.nodes) → Reaches c node th x := by
  refine ⟨if_pos hd, fun th x h0 hG => ⟨node, hd, [], [node], .nil (hG node hd), ?_⟩⟩
  simpa [routeTime] using h0

open Classical in
/-- Whenever the analysis of a node that reaches a destination in the intact network returns: the
number returned is the upper bound of the probability that the node does not reach any destination
within the allowed multiple of the time in the intact network, the last lower bound is a lower bound.
In the CPM of the node every vector of road states has a row; state 0 means that the node does not
reach a destination in time, state 1 that it does. -/
theorem C92_bounds_partial {lib : PathLib K} (hlib : PathLibOK lib) (h : RoadsOK c) (hn : NodeOK c node)
    (hd : node ∉ c.dests) (h0 : 0 < c.maxSf) {t : ℚ} (ht : IntactTime c node t) {out : NodeOut K}
    (hout : processNode lib c node = .ok out) :
    ∃ row C, out.mon.getLast? = some row ∧ out.pf = row.pfUp ∧ out.nsamp = 0 ∧
      row.pfLow ≤ probOf (statesOf c.varis) c.probs (fun x => ¬ Reaches c node (c.thres * t) x) ∧
      probOf (statesOf c.varis) c.probs (fun x => ¬ Reaches c node (c.thres * t) x) ≤ row.pfUp ∧
      out.cpm = some (sysCpm (roadVar c node) (statesOf c.varis) node C) ∧
      EventsOK (roadVar c node) (statesOf c.varis) 3 C ∧
      ∀ x, InSpace (statesOf c.varis) x →
        (∃ j, SysState (roadVar c node) (statesOf c.varis) C j x) ∧
        (SysState (roadVar c node) (statesOf c.varis) C 0 x → ¬ Reaches c node (c.thres * t) x) ∧
        (SysState (roadVar c node) (statesOf c.varis) C 1 x → Reaches c node (c.thres * t) x) := by
  obtain ⟨p, q, hitc⟩ := intact_found hlib h hn ht
  have hc := nodeCfg_ok hlib h hn (ht.pos h hd) (Φ := fun x => decide (Reaches c node (c.thres * t) x))
    (by simp)
  obtain ⟨st, bs, row, C, h1, h2, h3, h4, h5, h6, h7, -, h8⟩ := processNode_eq h hn hd hitc hc h0
  rw [pFail_decide] at h5 h6
  rw [hout] at h8
  split at h8
  · cases h8
  · cases h8
    refine ⟨row, C, h3, rfl, rfl, h5, h6, rfl, h4, fun x hx => ?_⟩
    obtain ⟨g1, g2, g3⟩ := h7 x hx
    exact ⟨g1, fun hs => by simpa using g2 hs, fun hs => by simpa using g3 hs⟩

open Classical in
/-- With limits above the number of road vectors and no target width, the analysis returns the exact
probability; the row of the CPM that covers a vector of road states tells whether the node reaches a
destination in time. -/
theorem C92_exact_partial {lib : PathLib K} (hlib : PathLibOK lib) (h : RoadsOK c) (hn : NodeOK c node)
    (hd : node ∉ c.dests) {t : ℚ} (ht : IntactTime c node t)
    (hsf : ((statesOf c.varis).map Prod.snd).prod < c.maxSf)
    (hnb : 2 * ((statesOf c.varis).map Prod.snd).prod ≤ c.maxNb) (hw : c.wr = 0) :
    ∃ out row C, processNode lib c node = .ok out ∧ out.mon.getLast? = some row ∧ out.nsamp = 0 ∧
      out.pf = probOf (statesOf c.varis) c.probs (fun x => ¬ Reaches c node (c.thres * t) x) ∧
      row.pfLow = out.pf ∧ row.pfUp = out.pf ∧
      out.cpm = some (sysCpm (roadVar c node) (statesOf c.varis) node C) ∧
      EventsOK (roadVar c node) (statesOf c.varis) 3 C ∧
      ∀ x, InSpace (statesOf c.varis) x →
        (SysState (roadVar c node) (statesOf c.varis) C 0 x ↔ ¬ Reaches c node (c.thres * t) x) ∧
        (SysState (roadVar c node) (statesOf c.varis) C 1 x ↔ Reaches c node (c.thres * t) x) := by
  obtain ⟨p, q, hitc⟩ := intact_found hlib h hn ht
  have hc := nodeCfg_ok hlib h hn (ht.pos h hd) (Φ := fun x => decide (Reaches c node (c.thres * t) x))
    (by simp)
  obtain ⟨st, bs, row, C, h1, h2, h3, h4, h5, h6, h7, h7', h8⟩ := processNode_eq h hn hd hitc hc
    (by omega)
  obtain ⟨st', g1, g2⟩ := C29_completes hc rfl hsf hnb hw rfl (Ex.start_empty _)
  rw [h1] at g1
  cases g1
  obtain ⟨bs', row', k1, k2, k3, k4, k5⟩ := C28_enough_branches_partial hc (Ex.start_empty _)
    (resume_none _ _) hnb h1 g2
  rw [h2] at k1; cases k1
  rw [h3] at k2; cases k2
  rw [pFail_decide] at k4 k5
  rw [g2] at h8
  simp only [reduceCtorEq, Option.some.injEq, or_self, if_false] at h8
  have h7' := h7' k3
  have hj : ∀ {x j}, SysState (roadVar c node) (statesOf c.varis) C j x → j = 0 ∨ j = 1 := by
    intro x j hs
    obtain ⟨r, hr, hh, -⟩ := id hs
    obtain ⟨s, cs, rfl, hlt, -⟩ := h4.rows r hr
    have : s = j := by simpa using hh
    subst this
    have : s ≠ 2 := fun e => h7' x (e ▸ hs)
    omega
  refine ⟨_, row, C, h8, h3, rfl, k5, ?_, rfl, rfl, h4, fun x hx => ?_⟩
  · show row.pfLow = row.pfUp
    rw [k5]; exact k4
  · obtain ⟨⟨j, hs⟩, a0, a1⟩ := h7 x hx
    have a0 : SysState (roadVar c node) (statesOf c.varis) C 0 x → ¬ Reaches c node (c.thres * t) x :=
      fun hs => by simpa using a0 hs
    have a1 : SysState (roadVar c node) (statesOf c.varis) C 1 x → Reaches c node (c.thres * t) x :=
      fun hs => by simpa using a1 hs
    refine ⟨⟨a0, fun hr => ?_⟩, ⟨a1, fun hr => ?_⟩⟩
    · rcases hj hs with rfl | rfl
      · exact hs
      · exact absurd (a1 hs) hr
    · rcases hj hs with rfl | rfl
      · exact absurd hr (a0 hs)
      · exact hs

/-- With a target width the analysis still returns, given such limits. -/
theorem C92_returns {lib : PathLib K} (hlib : PathLibOK lib) (h : RoadsOK c) (hn : NodeOK c node)
    (hsf : ((statesOf c.varis).map Prod.snd).prod < c.maxSf)
    (hnb : 2 * ((statesOf c.varis).map Prod.snd).prod ≤ c.maxNb) :
    ∃ out, processNode lib c node = .ok out := by
  classical
  by_cases hd : node ∈ c.dests
  · exact ⟨_, if_pos hd⟩
  have key : ∀ {t : Option ℚ} {p q : List K} {Φ : (K → ℕ) → Bool},
      timeAndPathMulti lib (compsOf (statesOf c.varis) (intactState c.varis)) c.G node c.dests
        c.varis = .ok (t, p, q) → CfgOK (nodeCfg lib c node t) Φ →
      ∃ out, processNode lib c node = .ok out := by
    intro t p q Φ hitc hc
    obtain ⟨st, bs, row, C, h1, -, -, -, -, -, -, -, h8⟩ := processNode_eq h hn hd hitc hc (by omega)
    obtain ⟨st', g1, g2⟩ := C29_stops hc rfl hsf hnb rfl (Ex.start_empty _)
    rw [h1] at g1
    cases g1
    rw [if_neg] at h8
    · exact ⟨_, h8⟩
    · rcases g2 with e | ⟨e, -⟩ <;> rw [e] <;> simp
  rcases timeAndPathMulti_ok hlib h.graph h.simple h.undirected h.times h.ne hn.1 h.destNodes h.dests
    h.inSpace with ⟨hno, h2⟩ | ⟨d, hdm, es, ns, h1, h2, h3⟩
  · exact key h2 (nodeCfg_ok_none hlib h hn hno)
  · refine key h2 (nodeCfg_ok hlib h hn (IntactTime.pos (node := node) h hd
      ⟨_, intact_best h, ⟨d, hdm, es, ns, h1, rfl⟩, h3⟩)
      (Φ := fun x => decide (Reaches c node (c.thres * routeTime c.varis (intactState c.varis) es) x)) (by simp))

/-- A node that does not reach any destination even in the intact network gets failure probability 0. -/
theorem C92_unreachable {lib : PathLib K} (hlib : PathLibOK lib) (h : RoadsOK c) (hn : NodeOK c node)
    (hno : ∀ d ∈ c.dests, ¬ ∃ es ns, Route c.G node es ns d)
    (hsf : ((statesOf c.varis).map Prod.snd).prod < c.maxSf)
    (hnb : 2 * ((statesOf c.varis).map Prod.snd).prod ≤ c.maxNb) (hw : c.wr = 0) :
    (∀ th x, ¬ Reaches c node th x) ∧
    ∃ out row, processNode lib c node = .ok out ∧ out.mon.getLast? = some row ∧ out.pf = 0 ∧
      row.pfLow = 0 ∧ row.pfUp = 0 := by
  have hd : node ∉ c.dests := fun hd => hno node hd ⟨[], [node], .nil hn.1⟩
  refine ⟨?_, ?_⟩
  · rintro th x ⟨d, hdm, es, ns, hr, -⟩
    exact hno d hdm ⟨es, ns, hr⟩
  have hc := nodeCfg_ok_none hlib h hn hno
  rcases timeAndPathMulti_ok hlib h.graph h.simple h.undirected h.times h.ne hn.1 h.destNodes h.dests
    h.inSpace with ⟨-, hitc⟩ | ⟨d, hdm, es, ns, h1, -⟩
  swap
  · exact absurd ⟨es, ns, h1⟩ (hno d hdm)
  obtain ⟨st, bs, row, C, h1, h2, h3, -, -, -, -, -, h8⟩ := processNode_eq h hn hd hitc hc (by omega)
  obtain ⟨st', g1, g2⟩ := C29_completes hc rfl hsf hnb hw rfl (Ex.start_empty _)
  rw [h1] at g1
  cases g1
  obtain ⟨bs', row', k1, k2, k3, k4, k5⟩ := C28_enough_branches_partial hc (Ex.start_empty _)
    (resume_none _ _) hnb h1 g2
  rw [h3] at k2; cases k2
  have hz : pFail (nodeCfg lib c node none).vs (nodeCfg lib c node none).probs (fun _ => true) = 0 := by
    unfold pFail probOf
    refine Eq.trans (sumOver_congr _ _ fun x => by simp) (sumOver_zero _ _)
  rw [hz] at k4 k5
  rw [g2] at h8
  simp only [reduceCtorEq, Option.some.injEq, or_self, if_false] at h8
  exact ⟨_, row, h8, h3, k5, k4, k5⟩

/-- When the limit on the branches or on the runs of the system function ends the analysis, the
sampling of the undecided branches that should follow fails: the only possible exception, and exactly
then. -/
theorem C92_limit_raises {lib : PathLib K} (hlib : PathLibOK lib) (h : RoadsOK c) (hn : NodeOK c node)
    (hd : node ∉ c.dests) (h0 : 0 < c.maxSf) : ∃ t st,
      run (nodeCfg lib c node t) { s := [], f := [] } none = .ok st ∧
      (∀ t', IntactTime c node t' → t = some t') ∧
      (processNode lib c node = .error .type ↔ st.outFlag = some .maxSf ∨ st.outFlag = some .maxNb) ∧
      ∀ e, processNode lib c node = .error e → e = .type := by
  classical
  have key : ∀ {t : Option ℚ} {p q : List K} {Φ : (K → ℕ) → Bool},
      timeAndPathMulti lib (compsOf (statesOf c.varis) (intactState c.varis)) c.G node c.dests
        c.varis = .ok (t, p, q) → CfgOK (nodeCfg lib c node t) Φ →
      ∃ t st, run (nodeCfg lib c node t) { s := [], f := [] } none = .ok st ∧
        (∀ t', IntactTime c node t' → t = some t') ∧
        (processNode lib c node = .error .type ↔ st.outFlag = some .maxSf ∨ st.outFlag = some .maxNb) ∧
        ∀ e, processNode lib c node = .error e → e = .type := by
    intro t p q Φ hitc hc
    obtain ⟨st, bs, row, C, h1, -, -, -, -, -, -, -, h8⟩ := processNode_eq h hn hd hitc hc h0
    refine ⟨t, st, h1, fun t' ht' => ?_, ?_, ?_⟩
    · obtain ⟨p', q', e⟩ := intact_found hlib h hn ht'
      rw [hitc] at e
      cases e; rfl
    · rw [h8]; split <;> simp_all
    · intro e he
      rw [h8] at he
      split at he <;> cases he
      rfl
  rcases timeAndPathMulti_ok hlib h.graph h.simple h.undirected h.times h.ne hn.1 h.destNodes h.dests
    h.inSpace with ⟨hno, h2⟩ | ⟨d, hdm, es, ns, h1, h2, h3⟩
  · exact key h2 (nodeCfg_ok_none hlib h hn hno)
  · refine key h2 (nodeCfg_ok hlib h hn (IntactTime.pos (node := node) h hd
      ⟨_, intact_best h, ⟨d, hdm, es, ns, h1, rfl⟩, h3⟩)
      (Φ := fun x => decide (Reaches c node (c.thres * routeTime c.varis (intactState c.varis) es) x)) (by simp))

/-- The sampling of undecided branches never returns, whatever the branches. -/
theorem C92_sampling_raises (l : List (Branch K)) : mcsUnknown l = .error .type := by
  unfold mcsUnknown
  cases l with
  | nil => rfl
  | cons a l => rfl

/-- If the time over a failed road is longer than what is allowed, the destinations are reached over
roads that have not failed: the time over a failed road does not matter otherwise. -/
theorem C92_closed_roads (h : RoadsOK c) {th : ℚ}
    (hB : ∀ kv ∈ c.varis, ∀ w, kv.2.values[0]? = some w → th < w) {x : K → ℕ}
    (hx : InSpace (statesOf c.varis) x) :
    Reaches c node th x ↔ ∃ d ∈ c.dests, ∃ es ns, Route c.G node es ns d ∧
      (∀ e ∈ es, x e.label ≠ 0) ∧ routeTime c.varis x es ≤ th := by
  unfold Reaches InTime
  refine exists_congr fun d => and_congr_right fun _ => exists_congr fun es => exists_congr fun ns =>
    and_congr_right fun hr => ⟨fun hle => ⟨fun e he h0 => ?_, hle⟩, And.right⟩
  have hval : ∀ e ∈ es, ∃ kv ∈ c.varis, kv.1 = e.label ∧ ∃ w ∈ kv.2.values,
      kv.2.values[x e.label]? = some w ∧ timeOf c.varis e.label (x e.label) = w := by
    intro e he
    obtain ⟨kn, g1, g2⟩ := List.mem_map.1 (mem_names_of_label h.times hr e he)
    obtain ⟨kv, hkv, rfl⟩ := List.mem_map.1 g1
    have hlt := hx _ g1
    simp only at g2 hlt
    rw [g2] at hlt
    refine ⟨kv, hkv, g2, kv.2.values[x e.label], List.getElem_mem hlt, List.getElem?_eq_getElem hlt, ?_⟩
    have hl : c.varis.lookup e.label = some kv.2 := g2 ▸ lookup_mem_items h.times.nodup hkv
    simp only [timeOf, hl, List.getElem?_eq_getElem hlt, Option.getD_some]
  obtain ⟨kv, hkv, -, w, -, hw, ht⟩ := hval e he
  rw [h0] at hw
  have hlt := hB kv hkv w hw
  have hge : w ≤ routeTime c.varis x es := by
    rw [← ht]
    refine List.single_le_sum ?_ _ (List.mem_map_of_mem he)
    intro y hy
    obtain ⟨e', he', rfl⟩ := List.mem_map.1 hy
    obtain ⟨kv', hkv', -, w', hw', -, e2⟩ := hval e' he'
    rw [e2]
    exact (h.pos kv' hkv' w' hw').le
  exact absurd (hge.trans hle) (not_le.2 hlt)

/-! ## The map -/

theorem itemsGet_perm {V : Type} {l l' : List (K × V)} (hp : l.Perm l') (hn : (l.map Prod.fst).Nodup) (k : K) :
    itemsGet l k = itemsGet l' k := by
  have hn' : (l'.map Prod.fst).Nodup := (hp.map Prod.fst).nodup_iff.1 hn
  have : l.lookup k = l'.lookup k := by
    by_cases hk : k ∈ l.map Prod.fst
    · obtain ⟨kv, hkv, rfl⟩ := List.mem_map.1 hk
      rw [lookup_mem_items hn hkv, lookup_mem_items hn' (hp.mem_iff.1 hkv)]
    · rw [lookup_missing hk, lookup_missing fun h => hk ((hp.map Prod.fst).mem_iff.2 h)]
  unfold itemsGet dictGet
  simp only [this]

/-- What `main` collects for one node. -/
def collect (lib : PathLib K) (c : PfCfg K) (n : K) : Except Err (K × Option (NodeLine K)) := do
  let o ← processNode lib c n
  let row ← nodeRecord n o
  return (n, row)

theorem collect_fst {lib : PathLib K} {n : K} {r : K × Option (NodeLine K)}
    (h : collect lib c n = .ok r) : r.1 = n := by
  unfold collect at h
  simp only [bind_ok] at h
  obtain ⟨o, -, row, -, h⟩ := h
  cases h; rfl

theorem collect_all {lib : PathLib K} {done : List K} {rows : List (K × Option (NodeLine K))}
    (h : done.mapM (collect lib c) = .ok rows) : rows.map Prod.fst = done := by
  have := mapM_ok_forall₂ h
  clear h
  induction this with
  | nil => rfl
  | cons h1 _ ih => rw [List.map_cons, ih, collect_fst h1]

theorem mapM_perm {α β : Type} {f : α → Except Err β} {l l' : List α} (hp : l.Perm l') {r : List β}
    (h : l.mapM f = .ok r) : ∃ r', l'.mapM f = .ok r' ∧ r.Perm r' := by
  induction hp generalizing r with
  | nil => exact ⟨r, h, .refl _⟩
  | cons a _ ih =>
    simp only [List.mapM_cons, bind_ok] at h
    obtain ⟨b, h1, bs, h2, h3⟩ := h
    cases h3
    obtain ⟨r', h4, h5⟩ := ih h2
    exact ⟨b :: r', by rw [List.mapM_cons, h1, ok_bind, h4, ok_bind]; rfl, h5.cons b⟩
  | swap a b l =>
    simp only [List.mapM_cons, bind_ok] at h
    obtain ⟨x, h1, ys, ⟨y, h2, zs, h3, h4⟩, h5⟩ := h
    cases h4
    cases h5
    exact ⟨y :: x :: zs, by simp only [List.mapM_cons, h1, h2, h3, ok_bind, pure_ok], .swap y x zs⟩
  | trans _ _ ih1 ih2 =>
    obtain ⟨r1, h1, h2⟩ := ih1 h
    obtain ⟨r2, h3, h4⟩ := ih2 h1
    exact ⟨r2, h3, h2.trans h4⟩

theorem pfMapMain_eq (lib : PathLib K) (c : PfCfg K) (nodes : List K) (epi : K) (done : List K) :
    pfMapMain lib c nodes epi done = (done.mapM (collect lib c)).bind fun rows =>
      (nodes.filter fun n => n ≠ epi ∧ n ∉ c.dests).mapM fun n => (itemsGet rows n).bind fun row =>
        match row with
        | some l => .ok l
        | none => .error .key := rfl

/-- The order in which the nodes are completed does not matter. -/
theorem C92_order {lib : PathLib K} {c : PfCfg K} {nodes done done' : List K} {epi : K}
    (hn : done.Nodup) (hp : done.Perm done') {r : List (NodeLine K)}
    (h : pfMapMain lib c nodes epi done = .ok r) : pfMapMain lib c nodes epi done' = .ok r := by
  rw [pfMapMain_eq] at h ⊢
  cases hr : done.mapM (collect lib c) with
  | error e => rw [hr] at h; cases h
  | ok rows =>
    rw [hr] at h
    obtain ⟨rows', h1, h2⟩ := mapM_perm hp hr
    rw [h1]
    rw [← h]
    have hnd : (rows.map Prod.fst).Nodup := by rw [collect_all hr]; exact hn
    show List.mapM _ _ = List.mapM _ _
    congr 1
    funext n
    rw [itemsGet_perm h2 hnd]

/-- One node whose analysis fails makes the whole map fail. -/
theorem C92_all_or_nothing {lib : PathLib K} {c : PfCfg K} {nodes done : List K} {epi n : K}
    (hn : n ∈ done) {e : Err} (he : processNode lib c n = .error e) :
    ∃ e', pfMapMain lib c nodes epi done = .error e' := by
  rw [pfMapMain_eq]
  cases hr : done.mapM (collect lib c) with
  | error e' => exact ⟨e', rfl⟩
  | ok rows =>
    have := mapM_ok_forall₂ hr
    obtain ⟨i, hi, rfl⟩ := List.mem_iff_getElem.1 hn
    have hc := (List.forall₂_iff_get.1 this).2 i hi ((List.forall₂_iff_get.1 this).1 ▸ hi)
    simp only [List.get_eq_getElem, collect, he] at hc
    cases hc

open Classical in
/-- The accuracy of the analysis of a node, with limits that are large enough: the bounds differ by at
most the asked fraction of the lower one.  For a node without a way to a destination both are 0. -/
theorem C92_accuracy {lib : PathLib K} (hlib : PathLibOK lib) (h : RoadsOK c) (hn : NodeOK c node)
    (hd : node ∉ c.dests) (hsf : ((statesOf c.varis).map Prod.snd).prod < c.maxSf)
    (hnb : 2 * ((statesOf c.varis).map Prod.snd).prod ≤ c.maxNb) (hw : 0 ≤ c.wr) :
    ∃ out row, processNode lib c node = .ok out ∧ out.mon.getLast? = some row ∧ out.nsamp = 0 ∧
      out.pf = row.pfUp ∧ out.cpm.isSome ∧ row.pfUp - row.pfLow ≤ row.pfLow * c.wr ∧
      (∀ t, IntactTime c node t →
        row.pfLow ≤ probOf (statesOf c.varis) c.probs (fun x => ¬ Reaches c node (c.thres * t) x) ∧
        probOf (statesOf c.varis) c.probs (fun x => ¬ Reaches c node (c.thres * t) x) ≤ row.pfUp) ∧
      ((∀ d ∈ c.dests, ¬ ∃ es ns, Route c.G node es ns d) → row.pfLow = 0 ∧ row.pfUp = 0) := by
  have key : ∀ {t : Option ℚ} {p q : List K} {Φ : (K → ℕ) → Bool},
      timeAndPathMulti lib (compsOf (statesOf c.varis) (intactState c.varis)) c.G node c.dests
        c.varis = .ok (t, p, q) → CfgOK (nodeCfg lib c node t) Φ →
      ∃ out row, processNode lib c node = .ok out ∧ out.mon.getLast? = some row ∧ out.nsamp = 0 ∧
        out.pf = row.pfUp ∧ out.cpm.isSome ∧ row.pfUp - row.pfLow ≤ row.pfLow * c.wr ∧
        row.pfLow ≤ pFail (statesOf c.varis) c.probs Φ ∧ pFail (statesOf c.varis) c.probs Φ ≤ row.pfUp := by
    intro t p q Φ hitc hc
    obtain ⟨st, bs, row, C, h1, -, h3, -, h5, h6, -, -, h8⟩ := processNode_eq h hn hd hitc hc (by omega)
    obtain ⟨st', g1, g2⟩ := C29_stops hc rfl hsf hnb rfl (Ex.start_empty _)
    rw [h1] at g1
    cases g1
    rw [if_neg (by rcases g2 with e | ⟨e, -⟩ <;> rw [e] <;> simp)] at h8
    refine ⟨_, row, h8, h3, rfl, rfl, rfl, ?_, h5, h6⟩
    rcases g2 with g2 | ⟨g2, -⟩
    · obtain ⟨-, row', -, k2, -, k4, k5⟩ := C28_enough_branches_partial hc (Ex.start_empty _)
        (resume_none _ _) hnb h1 g2
      rw [h3] at k2
      cases k2
      rw [k4, k5, sub_self]
      refine mul_nonneg ?_ hw
      exact probOf_nonneg hc.vs hc.probs _
    · obtain ⟨row', k2, k4, -⟩ := C60_accuracy hc hnb hw (Ex.start_empty _) (resume_none _ _) h1 g2
      rw [h3] at k2
      cases k2
      exact k4.le
  rcases timeAndPathMulti_ok hlib h.graph h.simple h.undirected h.times h.ne hn.1 h.destNodes h.dests
    h.inSpace with ⟨hno, h2⟩ | ⟨d, hdm, es, ns, h1, h2, h3⟩
  · obtain ⟨out, row, g1, g2, g3, g4, g5, g6, g7, g8⟩ := key h2 (nodeCfg_ok_none hlib h hn hno)
    have hz : pFail (statesOf c.varis) c.probs (fun _ => true) = 0 := by
      unfold pFail probOf
      refine Eq.trans (sumOver_congr _ _ fun x => by simp) (sumOver_zero _ _)
    rw [hz] at g7 g8
    refine ⟨out, row, g1, g2, g3, g4, g5, g6, ?_, fun _ => ?_⟩
    · rintro t ⟨x, -, ⟨d, hdm, es, ns, hr, -⟩, -⟩
      exact absurd ⟨es, ns, hr⟩ (hno d hdm)
    · constructor <;> nlinarith
  · have hit : IntactTime c node (routeTime c.varis (intactState c.varis) es) :=
      ⟨_, intact_best h, ⟨d, hdm, es, ns, h1, rfl⟩, h3⟩
    obtain ⟨out, row, g1, g2, g3, g4, g5, g6, g7, g8⟩ := key h2 (nodeCfg_ok hlib h hn (hit.pos h hd)
      (Φ := fun x => decide (Reaches c node (c.thres * routeTime c.varis (intactState c.varis) es) x))
      (by simp))
    rw [pFail_decide] at g7 g8
    refine ⟨out, row, g1, g2, g3, g4, g5, g6, fun t ht => ?_, fun hno => absurd ⟨es, ns, h1⟩ (hno d hdm)⟩
    rw [ht.unique h hit]
    exact ⟨g7, g8⟩

open Classical in
/-- The map with a target width and limits that are large enough, for any network: one line for each
node that is neither the epicentre nor a destination, in the order of the file.  The bounds enclose the
probability that the node does not reach a destination in time, as closely as asked; for a node without
a way to a destination both are 0. -/
theorem C92_map_accuracy {lib : PathLib K} (hlib : PathLibOK lib) (h : RoadsOK c) {nodes done : List K}
    {epi : K} (hnd : nodes.Nodup) (hn : ∀ n ∈ nodes, NodeOK c n) (hp : nodes.Perm done)
    (hsf : ((statesOf c.varis).map Prod.snd).prod < c.maxSf)
    (hnb : 2 * ((statesOf c.varis).map Prod.snd).prod ≤ c.maxNb) (hw : 0 ≤ c.wr) :
    ∃ lines, pfMapMain lib c nodes epi done = .ok lines ∧
      lines.map NodeLine.node = nodes.filter (fun n => n ≠ epi ∧ n ∉ c.dests) ∧
      ∀ l ∈ lines, l.nsamp = 0 ∧ l.up - l.low ≤ l.low * c.wr ∧
        (∀ t, IntactTime c l.node t →
          l.low ≤ probOf (statesOf c.varis) c.probs (fun x => ¬ Reaches c l.node (c.thres * t) x) ∧
          probOf (statesOf c.varis) c.probs (fun x => ¬ Reaches c l.node (c.thres * t) x) ≤ l.up) ∧
        ((∀ d ∈ c.dests, ¬ ∃ es ns, Route c.G l.node es ns d) → l.low = 0 ∧ l.up = 0) := by
  have hall : ∀ n ∈ nodes, ∃ row : Option (NodeLine K), collect lib c n = .ok (n, row) ∧
      (n ∉ c.dests → ∃ l, row = some l ∧ l.node = n ∧ l.nsamp = 0 ∧ l.up - l.low ≤ l.low * c.wr ∧
        (∀ t, IntactTime c l.node t →
          l.low ≤ probOf (statesOf c.varis) c.probs (fun x => ¬ Reaches c l.node (c.thres * t) x) ∧
          probOf (statesOf c.varis) c.probs (fun x => ¬ Reaches c l.node (c.thres * t) x) ≤ l.up) ∧
        ((∀ d ∈ c.dests, ¬ ∃ es ns, Route c.G l.node es ns d) → l.low = 0 ∧ l.up = 0)) := by
    intro n hnm
    by_cases hd : n ∈ c.dests
    · refine ⟨none, ?_, fun h => absurd hd h⟩
      unfold collect
      rw [(C92_destination lib c hd).1]
      rfl
    · obtain ⟨out, row, g1, g2, g3, g4, g5, g6, g7, g8⟩ := C92_accuracy hlib h (hn n hnm) hd hsf hnb hw
      refine ⟨some { node := n, low := row.pfLow, up := row.pfUp, nsamp := out.nsamp }, ?_,
        fun _ => ⟨_, rfl, rfl, g3, g6, g7, g8⟩⟩
      unfold collect
      rw [g1, ok_bind]
      unfold nodeRecord
      obtain ⟨P, hP⟩ := Option.isSome_iff_exists.1 g5
      rw [hP]
      simp only [g2]
      rfl
  choose! g hg hg' using hall
  have hrows : nodes.mapM (collect lib c) = .ok (nodes.map fun n => (n, g n)) := mapM_ok hg
  have hkeys : ((nodes.map fun n => (n, g n)).map Prod.fst).Nodup := by
    rw [List.map_map]
    simpa [Function.comp_def] using hnd
  set L : K → NodeLine K := fun n => (g n).getD ⟨n, 0, 0, 0⟩ with hL
  have pick : ∀ {P : NodeLine K → Prop} {n : K}, (∃ l, g n = some l ∧ P l) → g n = some (L n) ∧ P (L n) := by
    rintro P n ⟨l, h1, h2⟩
    have : l = L n := by rw [hL]; simp [h1]
    rw [this] at h1 h2
    exact ⟨h1, h2⟩
  replace hg' := fun n hnm hd => pick (hg' n hnm hd)
  refine ⟨(nodes.filter fun n => n ≠ epi ∧ n ∉ c.dests).map L, C92_order hnd hp ?_, ?_, ?_⟩
  · rw [pfMapMain_eq, hrows]
    show List.mapM _ _ = _
    refine mapM_ok fun n hnf => ?_
    obtain ⟨hnm, hcond⟩ := List.mem_filter.1 hnf
    have hcond : n ≠ epi ∧ n ∉ c.dests := of_decide_eq_true hcond
    have hget : itemsGet (nodes.map fun n => (n, g n)) n = .ok (g n) := by
      have := lookup_mem_items (kv := (n, g n)) hkeys (List.mem_map.2 ⟨n, hnm, rfl⟩)
      unfold itemsGet dictGet
      simp only at this
      simp only [this]
    rw [hget, (hg' n hnm hcond.2).1]
    rfl
  · rw [List.map_map]
    refine (List.map_congr_left fun n hnf => ?_).trans (List.map_id _)
    obtain ⟨hnm, hcond⟩ := List.mem_filter.1 hnf
    exact (hg' n hnm (of_decide_eq_true hcond).2).2.1
  · intro l hl
    obtain ⟨n, hnf, rfl⟩ := List.mem_map.1 hl
    obtain ⟨hnm, hcond⟩ := List.mem_filter.1 hnf
    have hcond := (of_decide_eq_true hcond).2
    exact (hg' n hnm hcond).2.2

open Classical in
/-- Whatever the limits: a map that is written has one line for each node that is neither the epicentre
nor a destination, in the order of the file, and its bounds enclose the probability that the node does
not reach a destination in time. -/
theorem C92_map_sound {lib : PathLib K} (hlib : PathLibOK lib) (h : RoadsOK c) {nodes done : List K}
    {epi : K} (hn : ∀ n ∈ nodes, NodeOK c n) (h0 : 0 < c.maxSf) {lines : List (NodeLine K)}
    (hm : pfMapMain lib c nodes epi done = .ok lines) :
    lines.map NodeLine.node = nodes.filter (fun n => n ≠ epi ∧ n ∉ c.dests) ∧
      ∀ l ∈ lines, l.nsamp = 0 ∧ ∀ t, IntactTime c l.node t →
        l.low ≤ probOf (statesOf c.varis) c.probs (fun x => ¬ Reaches c l.node (c.thres * t) x) ∧
        probOf (statesOf c.varis) c.probs (fun x => ¬ Reaches c l.node (c.thres * t) x) ≤ l.up := by
  rw [pfMapMain_eq] at hm
  cases hr : done.mapM (collect lib c) with
  | error e => rw [hr] at hm; cases hm
  | ok rows =>
    rw [hr] at hm
    have hall := mapM_ok_forall₂ (show List.mapM _ _ = Except.ok lines from hm)
    have hrow : ∀ n l, itemsGet rows n = .ok (some l) → ∃ out row, processNode lib c n = .ok out ∧
        out.mon.getLast? = some row ∧ l = ⟨n, row.pfLow, row.pfUp, out.nsamp⟩ := by
      intro n l hg
      have hl : rows.lookup n = some (some l) := by
        unfold itemsGet dictGet at hg
        split at hg
        · rename_i hv; cases hg; exact hv
        · cases hg
      have hmem : (n, some l) ∈ rows := by
        clear hall hm hr hg
        induction rows with
        | nil => cases hl
        | cons e rs ih =>
          obtain ⟨e1, e2⟩ := e
          rw [List.lookup_cons] at hl
          by_cases hk : n = e1
          · subst hk
            rw [beq_self_eq_true] at hl
            cases hl
            exact List.mem_cons_self
          · rw [beq_eq_false_iff_ne.2 hk] at hl
            exact List.mem_cons_of_mem _ (ih hl)
      have hf := mapM_ok_forall₂ hr
      obtain ⟨i, hi, he⟩ := List.mem_iff_getElem.1 hmem
      have hc := (List.forall₂_iff_get.1 hf).2 i ((List.forall₂_iff_get.1 hf).1 ▸ hi) hi
      simp only [List.get_eq_getElem, he] at hc
      have hfst : n = done[i]'((List.forall₂_iff_get.1 hf).1 ▸ hi) := collect_fst hc
      rw [← hfst] at hc
      unfold collect at hc
      simp only [bind_ok] at hc
      obtain ⟨o, h1, row, h2, h3⟩ := hc
      cases h3
      unfold nodeRecord at h2
      split at h2
      · cases h2
      · split at h2
        · cases h2
        · rename_i row hlast
          cases h2
          exact ⟨o, row, h1, hlast, rfl⟩
    have hline : ∀ n l, ((itemsGet rows n).bind fun row => match row with
        | some l => (.ok l : Except Err (NodeLine K))
        | none => .error .key) = .ok l → itemsGet rows n = .ok (some l) := by
      intro n l hb
      cases hg : itemsGet rows n with
      | error e => rw [hg] at hb; cases hb
      | ok row =>
        rw [hg] at hb
        cases row with
        | none => cases hb
        | some l' => cases hb; rfl
    constructor
    · clear hm
      generalize nodes.filter (fun n => decide (n ≠ epi ∧ n ∉ c.dests)) = ns at hall
      induction hall with
      | nil => rfl
      | cons hb _ ih =>
        obtain ⟨out, row, -, -, rfl⟩ := hrow _ _ (hline _ _ hb)
        rw [List.map_cons, ih]
    · intro l hl
      obtain ⟨i, hi, rfl⟩ := List.mem_iff_getElem.1 hl
      have hi' := (List.forall₂_iff_get.1 hall).1 ▸ hi
      have hb := (List.forall₂_iff_get.1 hall).2 i hi' hi
      simp only [List.get_eq_getElem] at hb
      obtain ⟨hnm, hcond⟩ := List.mem_filter.1 (List.getElem_mem hi')
      have hcond := (of_decide_eq_true hcond).2
      obtain ⟨out, row, h1, h2, h3⟩ := hrow _ _ (hline _ _ hb)
      rw [h3]
      clear hb h3
      generalize (nodes.filter fun n => decide (n ≠ epi ∧ n ∉ c.dests))[i] = n at hnm hcond h1 ⊢
      have hns : out.nsamp = 0 := by
        rcases timeAndPathMulti_ok hlib h.graph h.simple h.undirected h.times h.ne (hn _ hnm).1
          h.destNodes h.dests h.inSpace with ⟨hno, g2⟩ | ⟨d, hdm, es, ns, g1, g2, g3⟩
        · obtain ⟨st, bs, row', C, -, -, -, -, -, -, -, -, h8⟩ := processNode_eq h (hn _ hnm) hcond g2
            (nodeCfg_ok_none hlib h (hn _ hnm) hno) h0
          rw [h1] at h8
          split at h8 <;> cases h8
          rfl
        · obtain ⟨st, bs, row', C, -, -, -, -, -, -, -, -, h8⟩ := processNode_eq h (hn _ hnm) hcond g2
            (nodeCfg_ok hlib h (hn _ hnm) (IntactTime.pos h hcond
              ⟨_, intact_best h, ⟨d, hdm, es, ns, g1, rfl⟩, g3⟩)
              (Φ := fun x => decide (Reaches c n (c.thres * routeTime c.varis (intactState c.varis) es) x))
              (by simp)) h0
          rw [h1] at h8
          split at h8 <;> cases h8
          rfl
      refine ⟨hns, fun t ht => ?_⟩
      obtain ⟨row', C, k1, -, -, k2, k3, -⟩ := C92_bounds_partial hlib h (hn _ hnm) hcond h0 ht h1
      rw [h2] at k1
      cases k1
      exact ⟨k2, k3⟩

open Classical in
/-- The map, if every node reaches a destination in the intact network and the limits are large
enough: a line for every node except the destinations and the epicentre, in the order of the nodes,
with the exact probability that the node does not reach a destination in time. -/
theorem C92_map_partial {lib : PathLib K} (hlib : PathLibOK lib) (h : RoadsOK c) {nodes done : List K}
    {epi : K} (hnd : nodes.Nodup) (hn : ∀ n ∈ nodes, NodeOK c n) (hp : nodes.Perm done) {t : K → ℚ}
    (ht : ∀ n ∈ nodes, n ≠ epi → n ∉ c.dests → IntactTime c n (t n))
    (hsf : ((statesOf c.varis).map Prod.snd).prod < c.maxSf)
    (hnb : 2 * ((statesOf c.varis).map Prod.snd).prod ≤ c.maxNb) (hw : c.wr = 0) :
    pfMapMain lib c nodes epi done = .ok ((nodes.filter fun n => n ≠ epi ∧ n ∉ c.dests).map fun n =>
      let p := probOf (statesOf c.varis) c.probs fun x => ¬ Reaches c n (c.thres * t n) x
      { node := n, low := p, up := p, nsamp := 0 }) := by
  refine C92_order hnd hp ?_
  rw [pfMapMain_eq]
  have hall : ∀ n ∈ nodes, ∃ row, collect lib c n = .ok (n, row) := by
    intro n hnm
    obtain ⟨out, ho⟩ := C92_returns hlib h (hn n hnm) hsf hnb
    unfold collect
    rw [ho, ok_bind]
    unfold nodeRecord
    cases hcpm : out.cpm with
    | none => exact ⟨_, rfl⟩
    | some P =>
      cases hl : out.mon.getLast? with
      | some row => exact ⟨_, rfl⟩
      | none =>
        exfalso
        by_cases hd : n ∈ c.dests
        · rw [(C92_destination lib c hd).1] at ho
          cases ho
          cases hcpm
        · have key : ∀ {t : Option ℚ} {p q : List K} {Φ : (K → ℕ) → Bool},
              timeAndPathMulti lib (compsOf (statesOf c.varis) (intactState c.varis)) c.G n c.dests
                c.varis = .ok (t, p, q) → CfgOK (nodeCfg lib c n t) Φ → False := by
            intro t p q Φ hitc hc
            obtain ⟨st, bs, row, C, -, -, h3, -, -, -, -, -, h8⟩ :=
              processNode_eq h (hn n hnm) hd hitc hc (by omega)
            rw [ho] at h8
            split at h8 <;> cases h8
            rw [h3] at hl
            cases hl
          rcases timeAndPathMulti_ok hlib h.graph h.simple h.undirected h.times h.ne (hn n hnm).1
            h.destNodes h.dests h.inSpace with ⟨hno, h2⟩ | ⟨d, hdm, es, ns, h1, h2, h3⟩
          · exact key h2 (nodeCfg_ok_none hlib h (hn n hnm) hno)
          · refine key h2 (nodeCfg_ok hlib h (hn n hnm) (IntactTime.pos (node := n) h hd
              ⟨_, intact_best h, ⟨d, hdm, es, ns, h1, rfl⟩, h3⟩)
              (Φ := fun x => decide (Reaches c n (c.thres * routeTime c.varis (intactState c.varis) es) x))
              (by simp))
  choose! g hg using hall
  have hrows : nodes.mapM (collect lib c) = .ok (nodes.map fun n => (n, g n)) := mapM_ok hg
  rw [hrows]
  show List.mapM _ _ = _
  refine mapM_ok fun n hnf => ?_
  obtain ⟨hnm, hcond⟩ := List.mem_filter.1 hnf
  have hcond : n ≠ epi ∧ n ∉ c.dests := of_decide_eq_true hcond
  have hkeys : ((nodes.map fun n => (n, g n)).map Prod.fst).Nodup := by
    rw [List.map_map]
    simpa [Function.comp_def] using hnd
  have hget : itemsGet (nodes.map fun n => (n, g n)) n = .ok (g n) := by
    have := lookup_mem_items (kv := (n, g n)) hkeys (List.mem_map.2 ⟨n, hnm, rfl⟩)
    unfold itemsGet dictGet
    simp only at this
    simp only [this]
  obtain ⟨out, row, C, h1, h2, h3, h4, h5, h6, h7, -⟩ := C92_exact_partial hlib h (hn n hnm) hcond.2
    (ht n hnm hcond.1 hcond.2) hsf hnb hw
  have hcol := hg n hnm
  unfold collect at hcol
  rw [h1, ok_bind] at hcol
  unfold nodeRecord at hcol
  simp only [h7, h2, ok_bind, pure_ok] at hcol
  cases hcol' : g n with
  | none => rw [hcol'] at hcol; cases hcol
  | some l =>
    rw [hcol'] at hcol
    have hl : l = { node := n, low := row.pfLow, up := row.pfUp, nsamp := out.nsamp } := by
      cases hcol; rfl
    rw [hget, hcol']
    show Except.ok l = _
    rw [hl, h5, h6, h4, h3]

end

/-! ## Failing cases and an example -/

namespace PfEx

/-- Two roads from node 1 to node 0, one of them over node 2; node 3 is on its own. -/
def G : NGraph ℕ :=
  { directed := false, multi := false, nodes := [0, 1, 2, 3]
    edges := [⟨0, 1, .inl 0, 10, 1⟩, ⟨0, 2, .inl 0, 11, 1⟩, ⟨2, 1, .inl 0, 12, 1⟩] }

/-- Each road takes an hour, and 1000 hours when it has failed, which it does with probability 1/10. -/
def cfg (maxSf maxNb : ℕ) : PfCfg ℕ where
  G := G
  dests := [0]
  thres := 2
  varis := [10, 11, 12].map fun k => (k, Variable.mk' k [1000, 1] .dflt)
  probs := fun _ i => if i = 0 then 1 / 10 else 9 / 10
  maxSf := maxSf
  maxNb := maxNb
  wr := 0

theorem cfg_ok (maxSf maxNb : ℕ) : RoadsOK (cfg maxSf maxNb) := by
  have hmem : ∀ kv ∈ (cfg maxSf maxNb).varis, kv.2 = Variable.mk' kv.1 [1000, 1] .dflt := by
    intro kv hkv
    obtain ⟨k, -, rfl⟩ := List.mem_map.1 hkv
    rfl
  refine ⟨⟨by simp [cfg, G], fun _ => ?_, fun h => by simp [cfg, G] at h⟩, rfl, rfl,
    ⟨by simp [cfg], ?_, by simp [cfg, G], ?_, ?_⟩, by simp [cfg], ?_, ?_, ?_, by simp [cfg],
    by simp [cfg, G], by simp [cfg], ⟨?_, ?_⟩⟩
  · simp only [cfg, G, List.pairwise_cons, List.mem_cons, Links]
    refine ⟨?_, ?_, ?_, List.Pairwise.nil⟩
    · simp; refine ⟨fun u v => ?_, fun u v => ?_⟩ <;> omega
    · simp; intro u v; omega
    · simp
  · intro kv hkv; rw [hmem kv hkv]; simp [Variable.mk']
  · intro kv hkv w hw
    rw [hmem kv hkv] at hw
    simp only [Variable.mk', List.mem_cons, List.not_mem_nil, or_false] at hw
    rcases hw with rfl | rfl <;> norm_num
  · intro kv hkv; rw [hmem kv hkv]; simp [Variable.mk']
  · intro kv hkv w hw
    rw [hmem kv hkv] at hw
    simp only [Variable.mk', List.mem_cons, List.not_mem_nil, or_false] at hw
    rcases hw with rfl | rfl <;> norm_num
  · intro kv hkv; rw [hmem kv hkv]; rfl
  · intro kv hkv; rw [hmem kv hkv]; exact mk'_stored kv.1 (by simp) (by simp)
  · intro kn _ i _
    simp only [cfg]
    split <;> norm_num
  · intro kn hkn
    obtain ⟨kv, hkv, rfl⟩ := List.mem_map.1 hkn
    rw [hmem kv hkv]
    simp [cfg, Variable.mk', Finset.sum_range_succ]
    norm_num

theorem node_ok (maxSf maxNb : ℕ) : ∀ n ∈ G.nodes, NodeOK (cfg maxSf maxNb) n := by
  intro n hn
  refine ⟨hn, ?_⟩
  simp only [G, List.mem_cons, List.not_mem_nil, or_false] at hn
  rcases hn with rfl | rfl | rfl | rfl <;> simp [cfg]

end PfEx

open PfEx in
/-- Node 3 has no road at all; its line in the map is a failure probability of exactly 0.  The other
nodes are cut off with probability 19/1000 — both ways to node 0 must be closed. -/
theorem C92_not_unreachable :
    (∀ th x, ¬ Reaches (cfg 9 16) 3 th x) ∧
    pfMapMain enumLib (cfg 9 16) G.nodes 99 [3, 2, 1, 0] = .ok
      [⟨1, 19 / 1000, 19 / 1000, 0⟩, ⟨2, 19 / 1000, 19 / 1000, 0⟩, ⟨3, 0, 0, 0⟩] := by
  refine ⟨?_, by decide +kernel⟩
  rintro th x ⟨d, hd, es, ns, hr, -⟩
  have hd0 : d = 0 := by simpa [cfg] using hd
  subst hd0
  cases hr with
  | cons _ he hl _ =>
    simp only [cfg, G, List.mem_cons, List.not_mem_nil, or_false] at he
    rcases he with rfl | rfl | rfl <;> simp [Links] at hl

open PfEx in
/-- With room for one run of the system function, or for one branch, the analysis of a node ends in an
exception, and so does the map. -/
theorem C92_not_limits :
    (processNode enumLib (cfg 1 100) 1).map NodeOut.pf = .error .type ∧
    (processNode enumLib (cfg 100 1) 1).map NodeOut.pf = .error .type ∧
    pfMapMain enumLib (cfg 1 100) G.nodes 99 G.nodes = .error .type := by
  refine ⟨?_, ?_, ?_⟩ <;> decide +kernel

open PfEx Classical in
/-- The hypotheses can be met: node 1 is an hour away from node 0. -/
example : IntactTime (cfg 9 16) 1 1 ∧ ∃ out row, processNode enumLib (cfg 9 16) 1 = .ok out ∧
    out.mon.getLast? = some row ∧ row.pfUp = probOf (statesOf (cfg 9 16).varis) (cfg 9 16).probs
      (fun x => ¬ Reaches (cfg 9 16) 1 (2 * 1) x) := by
  have hi : IntactTime (cfg 9 16) 1 1 := by
    refine ⟨fun _ => 1, by simp [AllBest, cfg, Variable.mk'], ⟨0, by simp [cfg], [⟨0, 1, .inl 0, 10, 1⟩], [1, 0],
      .cons (by decide) (by simp [cfg, G]) (by simp [Links, cfg, G]) (.nil (by decide)), ?_⟩, ?_⟩
    · decide +kernel
    · intro d hd es ns hr
      have hd0 : d = 0 := by simpa [cfg] using hd
      subst hd0
      have hone : ∀ {u v : ℕ} {es : List (NEdge ℕ)} {ns : List ℕ}, Route (cfg 9 16).G u es ns v →
          routeTime (cfg 9 16).varis (fun _ => 1) es = es.length := by
        intro u v es ns hr
        induction hr with
        | nil _ => rfl
        | @cons u m v e es ns _ he _ _ ih =>
          have h1 : timeOf (cfg 9 16).varis e.label 1 = 1 := by
            simp only [cfg, G, List.mem_cons, List.not_mem_nil, or_false] at he
            rcases he with rfl | rfl | rfl <;> decide +kernel
          unfold routeTime at ih ⊢
          rw [List.map_cons, List.sum_cons, ih, h1, List.length_cons]
          push_cast; ring
      rw [hone hr]
      cases hr with
      | cons => rw [List.length_cons]; push_cast; linarith [Nat.cast_nonneg (α := ℚ) (List.length ‹_›)]
  obtain ⟨out, row, C, h1, h2, -, h3, -, h4, -⟩ := C92_exact_partial enumLib_ok (cfg_ok 9 16)
    (node_ok 9 16 1 (by decide)) (by simp [cfg]) hi (by decide) (by decide) rfl
  exact ⟨hi, out, row, h1, h2, h4.trans h3⟩

end BNS
