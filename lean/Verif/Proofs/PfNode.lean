import Verif.Spec.PfNode
import Verif.Props.Trans
import Verif.Proofs.ByOd
import Verif.Proofs.SysNetRun
import Verif.Proofs.ModelPy

/-!
# Lemmas about the analysis of a node (pf_map demo)
-/

namespace BNS

set_option linter.unusedSectionVars false

section
variable {K : Type} [DecidableEq K] {c : PfCfg K} {node : K}

theorem intact_best (h : RoadsOK c) : AllBest c.varis (intactState c.varis) := by
  intro kv hkv
  have := h.times.states kv hkv
  simp only [intactState, lookup_mem_items h.times.nodup hkv]
  omega

theorem RoadsOK.inSpace (h : RoadsOK c) : InSpace (statesOf c.varis) (intactState c.varis) :=
  intact_inSpace h.times.nodup h.times.states

/-- A route between different nodes takes some time. -/
theorem routeTime_pos (h : RoadsOK c) {x : K → ℕ} (hx : InSpace (statesOf c.varis) x) {u v : K}
    {es : List (NEdge K)} {ns : List K} (hr : Route c.G u es ns v) (hne : u ≠ v) :
    0 < routeTime c.varis x es := by
  have hall : ∀ e ∈ es, 0 < timeOf c.varis e.label (x e.label) := by
    intro e he
    obtain ⟨kn, h1, h2⟩ := List.mem_map.1 (mem_names_of_label h.times hr e he)
    obtain ⟨kv, hkv, rfl⟩ := List.mem_map.1 h1
    have hlt := hx _ h1
    simp only at h2 hlt
    rw [← h2]
    simp only [timeOf, lookup_mem_items h.times.nodup hkv, List.getElem?_eq_getElem hlt,
      Option.getD_some]
    exact h.pos kv hkv _ (List.getElem_mem hlt)
  cases hr with
  | nil _ => exact absurd rfl hne
  | @cons _ _ _ e es ns _ _ _ _ =>
    unfold routeTime
    rw [List.map_cons, List.sum_cons]
    refine add_pos_of_pos_of_nonneg (hall e (by simp)) (List.sum_nonneg fun y hy => ?_)
    obtain ⟨e', he', rfl⟩ := List.mem_map.1 hy
    exact (hall e' (List.mem_cons_of_mem _ he')).le

/-- The hypotheses of `run` for a node that reaches a destination in the intact network. -/
theorem nodeCfg_ok {lib : PathLib K} (hlib : PathLibOK lib) (h : RoadsOK c) (hn : NodeOK c node) {t : ℚ}
    (ht : 0 < t) {Φ : (K → ℕ) → Bool} (hΦ : ∀ x, Φ x = true ↔ Reaches c node (c.thres * t) x) :
    CfgOK (nodeCfg lib c node (some t)) Φ := by
  have h0 : c.thres * t ≠ 0 := (mul_pos h.thres ht).ne'
  have key : ∀ x, InSpace (statesOf c.varis) x →
      let r := nodeSysFun lib c.G c.dests c.thres node c.varis (some t) x
      (r.st = .s ↔ Φ x = true) ∧ (r.st = .f ↔ Φ x = false) ∧ RuleOK (statesOf c.varis) r.min ∧
      (r.st = .s → AppliesS r.min x ∧ ValidS (statesOf c.varis) Φ r.min) ∧
      (r.st = .f → r.min = []) := by
    intro x hx
    obtain ⟨t', st, r, h1, -, -, h2, h3, h4, h5, h6⟩ := C48_multi_dest_partial hlib h.graph h.simple
      h.undirected h.times h.ne hn.1 h.destNodes h.dests h0 hx
    simp only [nodeSysFun, sysFunWrap, h1]
    rw [hΦ, ← Bool.not_eq_true, hΦ]
    refine ⟨h2, h3, h4, fun hs => ⟨(h5 hs).1, fun y hy ha => ?_⟩, h6⟩
    rw [hΦ]
    exact (h5 hs).2 y hy ha
  refine ⟨timesOK_varis h.times, ?_, h.probs, ?_⟩
  · intro x y hxy hs
    rw [hΦ] at hs ⊢
    obtain ⟨d, hd, hin⟩ := hs
    exact ⟨d, hd, C48_monotone_time h.times node d _ hxy hin⟩
  · constructor
    · intro x hx
      obtain ⟨h1, h2, -⟩ := key x hx
      split
      · rename_i h; exact h1.2 h
      · rename_i h; exact h2.2 (by simpa using h)
    · intro x hx _
      exact (key x hx).2.2.1
    · intro x hx _ hs
      obtain ⟨h1, -, -, h4, -⟩ := key x hx
      exact (h4 (h1.2 hs)).symm
    · intro x hx hne hf
      obtain ⟨-, h2, -, -, h5⟩ := key x hx
      exact absurd (h5 (h2.2 hf)) hne

/-- The hypotheses of `run` for a node without a way to a destination: the system always survives. -/
theorem nodeCfg_ok_none {lib : PathLib K} (hlib : PathLibOK lib) (h : RoadsOK c) (hn : NodeOK c node)
    (hno : ∀ d ∈ c.dests, ¬ ∃ es ns, Route c.G node es ns d) :
    CfgOK (nodeCfg lib c node none) fun _ => true := by
  have key : ∀ x, InSpace (statesOf c.varis) x →
      nodeSysFun lib c.G c.dests c.thres node c.varis none x = { val := 0, st := .s, min := [] } := by
    intro x hx
    rcases timeAndPathMulti_ok hlib h.graph h.simple h.undirected h.times h.ne hn.1 h.destNodes
      h.dests hx with ⟨-, hok⟩ | ⟨d, hdm, es, ns, h1, -⟩
    · simp [nodeSysFun, hok, minComps]
    · exact absurd ⟨es, ns, h1⟩ (hno d hdm)
  refine ⟨timesOK_varis h.times, fun _ _ _ _ => rfl, h.probs, ?_⟩
  constructor
  · intro x hx
    show (nodeSysFun lib c.G c.dests c.thres node c.varis none x).st = _
    rw [key x hx]; rfl
  · intro x hx hne
    exact absurd (by show (nodeSysFun lib c.G c.dests c.thres node c.varis none x).min = _; rw [key x hx]) hne
  · intro x hx hne
    exact absurd (by show (nodeSysFun lib c.G c.dests c.thres node c.varis none x).min = _; rw [key x hx]) hne
  · intro x hx hne
    exact absurd (by show (nodeSysFun lib c.G c.dests c.thres node c.varis none x).min = _; rw [key x hx]) hne

theorem roadVar_mem (h : RoadsOK c) {kv : K × Variable K} (hkv : kv ∈ c.varis) :
    roadVar c node kv.1 = kv.2 := by
  simp [roadVar, lookup_mem_items h.times.nodup hkv]

theorem lookup_missing {V : Type} {l : List (K × V)} {k : K} (h : k ∉ l.map Prod.fst) :
    l.lookup k = none := by
  induction l with
  | nil => rfl
  | cons a l ih =>
    rw [List.map_cons, List.mem_cons, not_or] at h
    rw [List.lookup_cons]
    have : (k == a.1) = false := by simpa using h.1
    rw [this]
    exact ih h.2

theorem road_sysVars (h : RoadsOK c) (hn : NodeOK c node) :
    SysVars (roadVar c node) (statesOf c.varis) node 3 := by
  have hnode : roadVar c node node = nodeVariable node := by
    simp [roadVar, lookup_missing hn.2]
  have hmem : ∀ kn ∈ statesOf c.varis, ∃ kv ∈ c.varis, kn = (kv.1, kv.2.values.length) := by
    intro kn hkn
    obtain ⟨kv, hkv, rfl⟩ := List.mem_map.1 hkn
    exact ⟨kv, hkv, rfl⟩
  refine ⟨timesOK_varis h.times, ?_, ?_, ?_, ?_, ?_, ?_, ?_⟩
  · intro kn hkn
    obtain ⟨kv, hkv, rfl⟩ := hmem kn hkn
    simp only [roadVar_mem h hkv, h.name kv hkv]
  · intro kn hkn
    obtain ⟨kv, hkv, rfl⟩ := hmem kn hkn
    simp only [roadVar_mem h hkv]
  · intro kn hkn
    obtain ⟨kv, hkv, rfl⟩ := hmem kn hkn
    simp only [roadVar_mem h hkv, h.table kv hkv]
  · rw [names_statesOf]; exact hn.2
  · rw [hnode]; rfl
  · rw [hnode]; rfl
  · rw [hnode]; exact mk'_stored node (by simp) (by simp)

/-- `process_node` after the time in the intact network has been found. -/
theorem processNode_eq {lib : PathLib K} (h : RoadsOK c) (hn : NodeOK c node) (hd : node ∉ c.dests)
    {t : Option ℚ} {p q : List K}
    (ht : timeAndPathMulti lib (compsOf (statesOf c.varis) (intactState c.varis)) c.G node c.dests
      c.varis = .ok (t, p, q)) {Φ : (K → ℕ) → Bool} (hc : CfgOK (nodeCfg lib c node t) Φ)
    (h0 : 0 < c.maxSf) :
    ∃ st bs row C, run (nodeCfg lib c node t) { s := [], f := [] } none = .ok st ∧ st.brs = some bs ∧
      st.mon.getLast? = some row ∧ EventsOK (roadVar c node) (statesOf c.varis) 3 C ∧
      row.pfLow ≤ pFail (statesOf c.varis) c.probs Φ ∧ pFail (statesOf c.varis) c.probs Φ ≤ row.pfUp ∧
      (∀ x, InSpace (statesOf c.varis) x →
        (∃ j, SysState (roadVar c node) (statesOf c.varis) C j x) ∧
        (SysState (roadVar c node) (statesOf c.varis) C 0 x → Φ x = false) ∧
        (SysState (roadVar c node) (statesOf c.varis) C 1 x → Φ x = true)) ∧
      ((∀ b ∈ bs, b.downState = b.upState ∧ b.downState ≠ .u) → ∀ x,
        ¬ SysState (roadVar c node) (statesOf c.varis) C 2 x) ∧
      processNode lib c node =
        if st.outFlag = some .maxSf ∨ st.outFlag = some .maxNb then .error .type
        else .ok { cpm := some (sysCpm (roadVar c node) (statesOf c.varis) node C)
                   pf := row.pfUp, nsamp := 0, mon := st.mon } := by
  obtain ⟨st, hrun⟩ := C27_returns hc rfl (Ex.start_empty _)
  obtain ⟨hb1, -, -, hb⟩ := C27_bounds hc (Ex.start_empty _) hrun
  obtain ⟨bs, row, hbs, hpart, hlab, hrow, -⟩ := hb h0
  have hU := road_sysVars h hn
  obtain ⟨C, e1, e2, e3⟩ := csys_events hU hpart (varis := fun k => c.varis.lookup k)
    (fun kn hkn => by
      obtain ⟨kv, hkv, rfl⟩ := List.mem_map.1 hkn
      simp only [roadVar_mem h hkv, lookup_mem_items h.times.nodup hkv])
    (lbl := stBrToCs) (fun b _ => stBrToCs_some b.label)
  have e1 : getCsys ((statesOf c.varis).map Prod.fst) bs (fun k => c.varis.lookup k) stBrToCs =
    .ok (C, fun k => c.varis.lookup k) := e1
  rw [names_statesOf] at e1
  have hlast := hb1 row (List.mem_of_getLast? hrow)
  have sound : ∀ x, ∀ b ∈ bs, InBox (statesOf c.varis) b x → (b.label = .f → Φ x = false) ∧
        (b.label = .s → Φ x = true) := fun x b hb hin => label_sound hc.coh (hlab b hb).2 hin
  refine ⟨st, bs, row, C, hrun, hbs, hrow, e2, hlast.1, hlast.2, ?_, ?_, ?_⟩
  · intro x hx
    refine ⟨?_, ?_, ?_⟩
    · obtain ⟨b, hb', hin⟩ := hpart.exists hx
      obtain ⟨j, hj, -⟩ := stBrToCs_some b.label
      exact ⟨j, (e3 j x).2 ⟨b, hb', hj, hin⟩⟩
    · rw [e3]
      rintro ⟨b, hb', hl, hin⟩
      refine (sound x b hb' hin).1 ?_
      cases hlb : b.label <;> rw [hlb] at hl <;> simp [stBrToCs] at hl ⊢
    · rw [e3]
      rintro ⟨b, hb', hl, hin⟩
      refine (sound x b hb' hin).2 ?_
      cases hlb : b.label <;> rw [hlb] at hl <;> simp [stBrToCs] at hl ⊢
  · intro hall x
    rw [e3]
    rintro ⟨b, hb', hl, hin⟩
    obtain ⟨h1, h2⟩ := hall b hb'
    have : b.label = b.downState := by unfold Branch.label; rw [if_pos h1]
    rw [this] at hl
    cases hlb : b.downState <;> rw [hlb] at hl h2 <;> simp [stBrToCs] at hl h2
  · have hvs : (c.varis.mapM fun kv => dictGet (fun k => c.varis.lookup k) kv.1) =
        .ok (c.varis.map Prod.snd) := by
      refine mapM_ok fun kv hkv => ?_
      simp [dictGet, lookup_mem_items h.times.nodup hkv]
    have he : ({ vars := nodeVariable node :: c.varis.map Prod.snd, noChild := 1, C := C, p := C.map fun _ => 1 } : Cpm K) =
        sysCpm (roadVar c node) (statesOf c.varis) node C := by
      unfold sysCpm
      have hnode : roadVar c node node = nodeVariable node := by
        simp [roadVar, lookup_missing hn.2]
      have hcv : compVariables (roadVar c node) (statesOf c.varis) = c.varis.map Prod.snd := by
        unfold compVariables statesOf
        rw [List.map_map]
        exact List.map_congr_left fun kv hkv => roadVar_mem h hkv
      rw [hnode, hcv]
    have hmk : Cpm.mk' { vars := nodeVariable node :: c.varis.map Prod.snd, noChild := 1, C := C, p := C.map fun _ => 1 } =
        .ok (sysCpm (roadVar c node) (statesOf c.varis) node C) := by
      rw [he]
      refine mk'_ok ?_ ?_ (by simp [sysCpm]) (.inr (by simp [sysCpm])) rfl
      · intro r hr
        obtain ⟨s, cs, rfl, -, hl, -⟩ := e2.rows r hr
        simp [sysCpm, compVariables, hl]
      · intro r hr p hp
        obtain ⟨s, cs, rfl, hs, -, hent⟩ := e2.rows r hr
        rcases List.mem_cons.1 (show p ∈ (roadVar c node node, s) ::
          (compVariables (roadVar c node) (statesOf c.varis)).zip cs from hp) with rfl | hp
        · simp only [hU.sysSize]
          omega
        · exact hent p hp
    have hmcs : ∀ l : List (Branch K), mcsUnknown l = .error .type := by
      intro l
      unfold mcsUnknown
      cases l with
      | nil => rfl
      | cons a l => rfl
    unfold processNode
    rw [if_neg hd, ht, ok_bind, hrun, ok_bind, hbs]
    simp only
    rw [e1, ok_bind]
    simp only
    rw [hvs, ok_bind, hmk, ok_bind, hrow]
    simp only
    split
    · rw [hmcs]; rfl
    · rfl

end
end BNS
