import Verif.Proofs.Rbd
import Verif.Props.ByOd

/-!
# Property C91: a component given the state of the system
-/

namespace BNS

set_option linter.unusedSectionVars false

section
variable {K : Type} [LinearOrder K] {U : K → Variable K}

/-- The columns of the result of an elimination: if the children of every CPM come in the order of
their names — one child is enough for that — so do those of the result. -/
theorem C91_columns {cpms : List (Cpm K)} {ve : List (Variable K)} {P : Cpm K} (h : ElimOK U cpms ve)
    (hs : ∀ M ∈ cpms, (childNames M).Pairwise (· ≤ ·)) (hP : variableElim cpms ve = .ok P) :
    (childNames P).Pairwise (· ≤ ·) :=
  variableElim_sorted h.net h.nodup h.defined hs hP

/-- The order of elimination does not matter for the children either: they come in the same columns. -/
theorem C91_same_columns {cpms : List (Cpm K)} {ve ve' : List (Variable K)} (h : ElimOK U cpms ve)
    (hp : ve.Perm ve') (hs : ∀ M ∈ cpms, (childNames M).Pairwise (· ≤ ·)) :
    ∃ P Q, variableElim cpms ve = .ok P ∧ variableElim cpms ve' = .ok Q ∧
      P.vars.take P.noChild = Q.vars.take Q.noChild := by
  obtain ⟨P, p1, p2, -, -, p5, -⟩ := C15_elimination_partial cpms ve h
  obtain ⟨Q, q1, q2, -, -, q5, -⟩ := C15_elimination_partial cpms ve' (h.perm hp)
  refine ⟨P, Q, p1, q1, ?_⟩
  have hperm : (childNames P).Perm (childNames Q) := by
    refine p5.trans (List.Perm.trans (List.Perm.of_eq ?_) q5.symm)
    refine List.filter_congr fun k _ => ?_
    simp only [(hp.map Variable.name).mem_iff]
  have he : childNames P = childNames Q :=
    hperm.eq_of_pairwise' (r := (· ≤ ·)) (C91_columns h hs p1) (C91_columns (h.perm hp) hs q1)
  have back : ∀ {R : Cpm K}, WF U R → R.vars.take R.noChild = (childNames R).map U := by
    intro R hR
    unfold childNames
    rw [List.map_map]
    conv_lhs => rw [← List.map_id (R.vars.take R.noChild)]
    exact List.map_congr_left fun v hv => (hR.env v (List.mem_of_mem_take hv)).symm
  rw [back p2, back q2, he]

/-- The nodes of the diagram that may fail. -/
def blocks (nodes : List K) (o d : K) : List K := (nodes.erase o).erase d

/-- The diagram: distinct nodes among which are the two ends, the name of the system is none of them
and the component asked about is one of the others. -/
structure DiagramOK (G : NGraph K) (nodes : List K) (o d sys x1 : K) : Prop where
  graph : GraphOK G
  keys : G.multi = true → ∀ e ∈ G.edges, e.key = .inr e.label
  nodup : nodes.Nodup
  org : o ∈ nodes
  dst : d ∈ nodes
  ne : o ≠ d
  sys : sys ∉ nodes
  comp : x1 ∈ nodes ∧ x1 ≠ o ∧ x1 ≠ d

variable {G : NGraph K} {nodes : List K} {o d sys x1 : K}

theorem DiagramOK.mem_blocks (h : DiagramOK G nodes o d sys x1) {k : K} :
    k ∈ blocks nodes o d ↔ k ∈ nodes ∧ k ≠ o ∧ k ≠ d := by
  unfold blocks
  rw [(h.nodup.erase o).mem_erase_iff, h.nodup.mem_erase_iff]
  tauto

theorem probOf_split (vs : List (K × ℕ)) (probs : K → ℕ → ℚ) (hv : VarisOK vs)
    (E F F' : (K → ℕ) → Prop) [DecidablePred E] [DecidablePred F] [DecidablePred F']
    (h : ∀ x, InSpace vs x → (E x ↔ F x ∨ F' x) ∧ ¬ (F x ∧ F' x)) :
    probOf vs probs E = probOf vs probs F + probOf vs probs F' := by
  unfold probOf
  rw [← sumOver_add]
  refine sumOver_congr' vs hv.nodup _ fun x hx _ => ?_
  obtain ⟨h1, h2⟩ := h x hx
  by_cases hF : F x <;> by_cases hF' : F' x <;> simp_all

/-- Every vector of working and failed blocks has a positive probability. -/
theorem probOf_ones (names : List K) (hn : names.Nodup) (E : (K → ℕ) → Prop) [DecidablePred E]
    (hE : ∀ x, (∀ k ∈ names, x k = 1) → E x) : 0 < probOf (binary names) rbdProbs E := by
  have hv : VarisOK (binary names) :=
    ⟨by rwa [binary_fst], fun kn h => by rw [(mem_binary.1 h).2]; norm_num⟩
  refine lt_of_lt_of_le ?_ (probOf_mono hv (rbdProbs_ok names) (fun x => ∀ k ∈ names, x k = 1) E
    fun x _ h => hE x h)
  have h1 : probOf (binary names) rbdProbs (fun x => ∀ k ∈ names, x k = 1) =
      ((binary names).map fun kn => ∑ i ∈ Finset.range kn.2, if i = 1 then (9 / 10 : ℚ) else 0).prod := by
    rw [← sumOver_prod (binary names) hv.nodup (fun _ i => if i = 1 then (9 / 10 : ℚ) else 0)
      (fun _ => 0)]
    unfold probOf
    refine sumOver_congr _ _ fun y => ?_
    unfold weight
    by_cases h : ∀ k ∈ names, y k = 1
    · rw [if_pos h]
      congr 1
      refine List.map_congr_left fun kn hkn => ?_
      rw [h _ (mem_binary.1 hkn).1]
      simp [rbdProbs]
    · rw [if_neg h]
      push Not at h
      obtain ⟨k, hk, hy⟩ := h
      refine (List.prod_eq_zero ?_).symm
      rw [List.mem_map]
      exact ⟨(k, 2), mem_binary.2 ⟨hk, rfl⟩, by simp [hy]⟩
  rw [h1]
  refine List.prod_pos fun a ha => ?_
  obtain ⟨kn, hkn, rfl⟩ := List.mem_map.1 ha
  rw [(mem_binary.1 hkn).2]
  simp [Finset.sum_range_succ]

/-- What `main` returns when the run leaves no branch undecided. -/
theorem rbdMain_eq {lib : PathLib K} (hlib : PathLibOK lib) (h : DiagramOK G nodes o d sys x1)
    {names : List K} (hnames : blocks nodes o d = names)
    {maxB : ℕ} (h0 : 0 < maxB) [DecidablePred (Connected G (binary names) o d)]
    {st : RunState K} (hrun : run (rbdCfg lib G names o d maxB) { s := [], f := [] } none = .ok st)
    {bs : List (Branch K)} (hbs : st.brs = some bs)
    (hres : ∀ b ∈ bs, b.downState = b.upState ∧ b.downState ≠ .u) :
    rbdMain lib G nodes o d sys x1 maxB = .ok (quot
      (probOf (binary names) rbdProbs fun x =>
        Connected G (binary names) o d x ∧ x x1 = 1)
      (if sys < x1 then probOf (binary names) rbdProbs fun x =>
          Connected G (binary names) o d x
        else probOf (binary names) rbdProbs fun x => x x1 = 1)) := by
  have hnd : names.Nodup := hnames ▸ (h.nodup.erase o).erase d
  have hsys : sys ∉ names := fun hc => h.sys (h.mem_blocks.1 (hnames ▸ hc)).1
  have hx1 : x1 ∈ names := hnames ▸ h.mem_blocks.2 h.comp
  have hU := rbd_sysVars hnd hsys
  set Φ : (K → ℕ) → Bool := fun x => decide (Connected G (binary names) o d x) with hΦ
  have hs := sysFun_conn hlib h.graph h.keys (binary names) (o := o) (d := d) (Φ := Φ) (by simp [hΦ])
  have hc : CfgOK (rbdCfg lib G names o d maxB) Φ := by
    refine ⟨hU.varis, hs.2, ⟨fun kn _ i _ => ?_, fun kn hkn => ?_⟩, hs.1⟩
    · show (0 : ℚ) ≤ 1 / 2; norm_num
    · have hkn : kn ∈ binary names := hkn
      rw [(mem_binary.1 hkn).2]
      show (∑ i ∈ Finset.range 2, (1 / 2 : ℚ)) = 1
      norm_num
  obtain ⟨-, -, -, hb⟩ := C27_bounds hc (Ex.start_empty _) hrun
  obtain ⟨bs', row, hbs', hpart, hlab, -⟩ := hb h0
  rw [hbs] at hbs'
  cases hbs'
  have hpart : Partition (binary names) bs := hpart
  have hlabel : ∀ b ∈ bs, b.label = .f ∨ b.label = .s := by
    intro b hb'
    obtain ⟨h1, h2⟩ := hres b hb'
    unfold Branch.label
    rw [if_pos h1]
    cases hd : b.downState <;> simp_all
  obtain ⟨C, e1, e2, e3⟩ := csys_events hU hpart
    (varis := fun k => if k ∈ names then some (rbdVariable k) else none)
    (fun kn hkn => if_pos (mem_binary.1 hkn).1) (lbl := stBrToCs) (by
      intro b hb'
      rcases hlabel b hb' with e | e <;> rw [e]
      · exact ⟨0, rfl, by omega⟩
      · exact ⟨1, rfl, by omega⟩)
  rw [binary_fst] at e1
  -- the state of the system that the event matrix shows is the true one
  have hstate : ∀ x, InSpace (binary names) x →
      (SysState rbdVariable (binary names) C 1 x ↔ Connected G (binary names) o d x) ∧
      (SysState rbdVariable (binary names) C 0 x ↔ ¬ Connected G (binary names) o d x) := by
    intro x hx
    obtain ⟨b, hb', hin⟩ := hpart.exists hx
    have sound : ∀ b ∈ bs, InBox (binary names) b x → (b.label = .f → Φ x = false) ∧
        (b.label = .s → Φ x = true) := fun b hb hin => label_sound hc.coh (hlab b hb).2 hin
    have hΦt : Φ x = true ↔ Connected G (binary names) o d x := by simp [hΦ]
    have hΦf : Φ x = false ↔ ¬ Connected G (binary names) o d x := by simp [hΦ]
    rw [e3, e3, ← hΦf, ← hΦt]
    constructor
    · constructor
      · rintro ⟨b', hb1, hl, hin'⟩
        refine (sound b' hb1 hin').2 ?_
        rcases hlabel b' hb1 with e | e
        · rw [e] at hl; cases hl
        · exact e
      · intro ht
        refine ⟨b, hb', ?_, hin⟩
        rcases hlabel b hb' with e | e
        · rw [(sound b hb' hin).1 e] at ht; cases ht
        · rw [e]; rfl
    · constructor
      · rintro ⟨b', hb1, hl, hin'⟩
        refine (sound b' hb1 hin').1 ?_
        rcases hlabel b' hb1 with e | e
        · exact e
        · rw [e] at hl; cases hl
      · intro ht
        refine ⟨b, hb', ?_, hin⟩
        rcases hlabel b hb' with e | e
        · rw [e]; rfl
        · rw [(sound b hb' hin).2 e] at ht; cases ht
  have hS : rbdSys sys names C = .ok (sysCpm rbdVariable (binary names) sys C) := by
    have hw := sysCpm_WF hU e2
    have hcv : compVariables rbdVariable (binary names) = names.map rbdVariable := by
      unfold compVariables binary
      rw [List.map_map]; rfl
    have he : ({ vars := (sys :: names).map rbdVariable, noChild := 1, C := C, p := C.map fun _ => 1 } : Cpm K) =
        sysCpm rbdVariable (binary names) sys C := by
      unfold sysCpm
      rw [hcv, List.map_cons]
    unfold rbdSys
    rw [he]
    exact mk'_ok hw.rowLen hw.entry hw.child (.inr hw.pLen) hw.noCs.1
  have hrem : removeName nodes o = .ok (nodes.erase o) := if_pos h.org
  have hrem2 : removeName (nodes.erase o) d = .ok names :=
    by
    rw [← hnames]; exact if_pos ((List.mem_erase_of_ne h.ne.symm).2 h.dst)
  unfold rbdMain
  rw [hrem, ok_bind, hrem2, ok_bind, hrun, ok_bind, hbs]
  simp only
  rw [e1, ok_bind]
  simp only
  rw [hS, ok_bind, rbdInfer_eq hnd hsys hx1 e2]
  have hnum : probOf (binary names) rbdProbs (fun x => SysState rbdVariable (binary names) C 1 x ∧ x x1 = 1) =
      probOf (binary names) rbdProbs fun x => Connected G (binary names) o d x ∧ x x1 = 1 :=
    probOf_congr hU.varis _ _ _ fun x hx => and_congr_left fun _ => (hstate x hx).1
  have hlt2 : ∀ x, InSpace (binary names) x → x x1 < 2 := fun x hx =>
    hx (x1, 2) (mem_binary.2 ⟨hx1, rfl⟩)
  refine congrArg Except.ok (congrArg₂ quot hnum ?_)
  by_cases hlt : sys < x1
  · simp only [if_pos hlt]
    refine (probOf_split _ _ hU.varis _ _ _ fun x hx => ?_).symm
    have := hlt2 x hx
    rw [(hstate x hx).1]
    have h01 : x x1 = 0 ∨ x x1 = 1 := by omega
    constructor
    · constructor
      · exact fun h1 => h01.imp (fun e => ⟨h1, e⟩) fun e => ⟨h1, e⟩
      · rintro (⟨h1, -⟩ | ⟨h1, -⟩) <;> exact h1
    · rintro ⟨⟨-, h1⟩, -, h2⟩
      omega
  · simp only [if_neg hlt]
    refine (probOf_split _ _ hU.varis _ _ _ fun x hx => ?_).symm
    rw [(hstate x hx).1, (hstate x hx).2]
    tauto

/-- If no branch of the run is left undecided and the name of the system comes before that of the
component, `main` prints the probability that the component works given that the system does, for
components that fail with probability 0.1 — whatever the probabilities the run used — and `nan` when
the system cannot work. -/
theorem C91_conditional_partial {lib : PathLib K} (hlib : PathLibOK lib) (h : DiagramOK G nodes o d sys x1)
    (hlt : sys < x1) {maxB : ℕ} (h0 : 0 < maxB)
    [DecidablePred (Connected G (binary (blocks nodes o d)) o d)] {st : RunState K}
    (hrun : run (rbdCfg lib G (blocks nodes o d) o d maxB) { s := [], f := [] } none = .ok st)
    {bs : List (Branch K)} (hbs : st.brs = some bs)
    (hres : ∀ b ∈ bs, b.downState = b.upState ∧ b.downState ≠ .u) :
    rbdMain lib G nodes o d sys x1 maxB =
      .ok (if Connected G (binary (blocks nodes o d)) o d fun _ => 1 then
        some (probOf (binary (blocks nodes o d)) rbdProbs
            (fun x => Connected G (binary (blocks nodes o d)) o d x ∧ x x1 = 1) /
          probOf (binary (blocks nodes o d)) rbdProbs (Connected G (binary (blocks nodes o d)) o d))
        else none) := by
  rw [rbdMain_eq hlib h rfl h0 hrun hbs hres]
  congr 1
  unfold quot
  simp only [if_pos hlt]
  have hmono : ∀ x, Connected G (binary (blocks nodes o d)) o d x →
      Connected G (binary (blocks nodes o d)) o d fun _ => 1 := by
    rintro x ⟨es, ns, h1, -, -⟩
    exact ⟨es, ns, h1, fun e _ _ => by simp, fun n _ _ => by simp⟩
  by_cases hcon : Connected G (binary (blocks nodes o d)) o d fun _ => 1
  · rw [if_pos hcon, if_neg]
    refine ne_of_gt (probOf_ones _ ((h.nodup.erase o).erase d) _ fun x hx => ?_)
    obtain ⟨es, ns, h1, -, -⟩ := hcon
    refine ⟨es, ns, h1, fun e _ hw => ?_, fun n _ hw => ?_⟩
    · rw [binary_fst] at hw; rw [hx _ hw]; simp
    · rw [binary_fst] at hw; rw [hx _ hw]; simp
  · rw [if_neg hcon, if_pos]
    unfold probOf
    refine Eq.trans (sumOver_congr _ _ fun x => if_neg fun hc => hcon (hmono x hc)) (sumOver_zero _ _)

/-- With limits of at least twice the number of component vectors nothing is assumed of the run. -/
theorem C91_limits_partial {lib : PathLib K} (hlib : PathLibOK lib) (h : DiagramOK G nodes o d sys x1)
    (hlt : sys < x1) {maxB : ℕ} (hm : 2 ^ (nodes.length - 1) ≤ maxB)
    [DecidablePred (Connected G (binary (blocks nodes o d)) o d)] :
    rbdMain lib G nodes o d sys x1 maxB =
      .ok (if Connected G (binary (blocks nodes o d)) o d fun _ => 1 then
        some (probOf (binary (blocks nodes o d)) rbdProbs
            (fun x => Connected G (binary (blocks nodes o d)) o d x ∧ x x1 = 1) /
          probOf (binary (blocks nodes o d)) rbdProbs (Connected G (binary (blocks nodes o d)) o d))
        else none) := by
  set names := blocks nodes o d with hnames
  have hnd : names.Nodup := (h.nodup.erase o).erase d
  have hv : VarisOK (binary names) :=
    ⟨by rwa [binary_fst], fun kn h => by rw [(mem_binary.1 h).2]; norm_num⟩
  have hs := sysFun_conn hlib h.graph h.keys (binary names) (o := o) (d := d)
    (Φ := fun x => decide (Connected G (binary names) o d x)) (by simp)
  have hc : CfgOK (rbdCfg lib G names o d maxB) fun x => decide (Connected G (binary names) o d x) := by
    refine ⟨hv, hs.2, ⟨fun kn _ i _ => ?_, fun kn hkn => ?_⟩, hs.1⟩
    · show (0 : ℚ) ≤ 1 / 2; norm_num
    · have hkn : kn ∈ binary names := hkn
      rw [(mem_binary.1 hkn).2]
      show (∑ i ∈ Finset.range 2, (1 / 2 : ℚ)) = 1
      norm_num
  have hlen : names.length + 1 = nodes.length - 1 := by
    have h1 : d ∈ nodes.erase o := (List.mem_erase_of_ne h.ne.symm).2 h.dst
    have h2 := List.length_erase_of_mem h1
    have h3 := List.length_erase_of_mem h.org
    have h4 := List.length_pos_of_mem h1
    rw [hnames, blocks, h2]
    omega
  have hprod : ((binary names).map Prod.snd).prod = 2 ^ names.length := by
    unfold binary
    rw [List.map_map]
    have : (names.map (Prod.snd ∘ fun k : K => (k, 2))) = List.replicate names.length 2 := by
      rw [List.eq_replicate_iff]
      refine ⟨by simp, fun b hb => ?_⟩
      obtain ⟨k, -, rfl⟩ := List.mem_map.1 hb
      rfl
    rw [this, List.prod_replicate]
  rw [← hlen, pow_succ] at hm
  have hpos : 0 < 2 ^ names.length := by positivity
  have hnb : 2 * ((rbdCfg lib G names o d maxB).vs.map Prod.snd).prod ≤ maxB := by
    show 2 * ((binary names).map Prod.snd).prod ≤ maxB
    rw [hprod]; omega
  obtain ⟨st, h1, h2⟩ := C29_completes hc rfl (by
    show ((binary names).map Prod.snd).prod < maxB
    rw [hprod]; omega) hnb rfl rfl (Ex.start_empty _)
  obtain ⟨bs, row, g1, -, g3, -⟩ := C28_enough_branches_partial hc (Ex.start_empty _)
    (resume_none _ _) hnb h1 h2
  convert C91_conditional_partial hlib h hlt (by omega) h1 g1 g3

/-- If the name of the component comes before that of the system, what is printed is the other
conditional probability: that the system works given that the component does. -/
theorem C91_name_order {lib : PathLib K} (hlib : PathLibOK lib) (h : DiagramOK G nodes o d sys x1)
    (hlt : x1 < sys) {maxB : ℕ} (h0 : 0 < maxB)
    [DecidablePred (Connected G (binary (blocks nodes o d)) o d)] {st : RunState K}
    (hrun : run (rbdCfg lib G (blocks nodes o d) o d maxB) { s := [], f := [] } none = .ok st)
    {bs : List (Branch K)} (hbs : st.brs = some bs)
    (hres : ∀ b ∈ bs, b.downState = b.upState ∧ b.downState ≠ .u) :
    rbdMain lib G nodes o d sys x1 maxB =
      .ok (some (probOf (binary (blocks nodes o d)) rbdProbs
            (fun x => Connected G (binary (blocks nodes o d)) o d x ∧ x x1 = 1) /
          probOf (binary (blocks nodes o d)) rbdProbs fun x => x x1 = 1)) := by
  rw [rbdMain_eq hlib h rfl h0 hrun hbs hres]
  congr 1
  unfold quot
  simp only [if_neg (lt_asymm hlt)]
  rw [if_neg]
  exact ne_of_gt (probOf_ones _ ((h.nodup.erase o).erase d) _ fun x hx =>
    hx _ (h.mem_blocks.2 h.comp))

/-- Names that are not there are refused; without evaluations there are no branches to work with. -/
theorem C91_raises (lib : PathLib K) (G : NGraph K) (nodes : List K) (o d sys x1 : K) (maxB : ℕ) :
    (o ∉ nodes → rbdMain lib G nodes o d sys x1 maxB = .error .value) ∧
    (d ∉ nodes.erase o → rbdMain lib G nodes o d sys x1 maxB = .error .value ) ∧
    (o ∈ nodes → d ∈ nodes.erase o → rbdMain lib G nodes o d sys x1 0 = .error .type) := by
  refine ⟨fun h => ?_, fun h => ?_, fun h1 h2 => ?_⟩
  · unfold rbdMain removeName
    rw [if_neg h]; rfl
  · unfold rbdMain removeName
    by_cases h1 : o ∈ nodes
    · rw [if_pos h1, ok_bind, if_neg h]; rfl
    · rw [if_neg h1]; rfl
  · unfold rbdMain removeName
    rw [if_pos h1, ok_bind, if_pos h2, ok_bind]
    rfl

end

/-! ## Failing cases -/

namespace RbdEx

def edge (u v l : ℕ) : NEdge ℕ := ⟨u, v, .inl 0, l, 1⟩

/-- Two blocks in parallel between 100 and 101. -/
def G2 : NGraph ℕ :=
  { directed := false, multi := false, nodes := [100, 1, 2, 101]
    edges := [edge 100 1 11, edge 100 2 12, edge 1 101 13, edge 2 101 14] }

theorem g2_ok : DiagramOK G2 G2.nodes 100 101 0 1 := by
  refine ⟨⟨by decide, fun _ => ?_, fun h => by simp [G2] at h⟩, fun h => by simp [G2] at h, by decide,
    by decide, by decide, by decide, by decide, by decide⟩
  simp only [G2, edge, List.pairwise_cons, List.mem_cons, Links]
  refine ⟨?_, ?_, ?_, ?_, List.Pairwise.nil⟩
  · simp; refine ⟨fun u v => ?_, fun u v => ?_, fun u v => ?_⟩ <;> omega
  · simp; refine ⟨fun u v => ?_, fun u v => ?_⟩ <;> omega
  · simp; intro u v; omega
  · simp

theorem g2_conn : Connected G2 (binary (blocks G2.nodes 100 101)) 100 101 fun _ => 1 :=
  ⟨[edge 100 1 11, edge 1 101 13], [100, 1, 101],
    .cons (by decide) (by simp [G2]) (by simp [Links, edge])
      (.cons (by decide) (by simp [G2]) (by simp [Links, edge]) (.nil (by decide))),
    fun _ _ _ => by simp, fun _ _ _ => by simp⟩

end RbdEx

open RbdEx in
/-- Two blocks in parallel: the block works with probability 10/11 given that the system does.  With a
name of the system that comes later in the alphabet the answer is 1. -/
theorem C91_not_name_order :
    rbdMain enumLib G2 G2.nodes 100 101 0 1 100 = .ok (some (10 / 11)) ∧
    rbdMain enumLib G2 G2.nodes 100 101 50 1 100 = .ok (some 1) := by
  constructor <;> decide +kernel

open RbdEx in
/-- When the limit stops the run early, undecided branches are silently left out of both probabilities:
after one evaluation the answer is `nan`, after two it is 1. -/
theorem C91_not_unresolved :
    rbdMain enumLib G2 G2.nodes 100 101 0 1 1 = .ok none ∧
    rbdMain enumLib G2 G2.nodes 100 101 0 1 2 = .ok (some 1) := by
  constructor <;> decide +kernel

/-! ## The hypotheses can be met -/

open RbdEx Classical in
example : ∃ p, rbdMain enumLib G2 G2.nodes 100 101 0 1 8 = .ok (some p) ∧
    p = probOf (binary (blocks G2.nodes 100 101)) rbdProbs
        (fun x => Connected G2 (binary (blocks G2.nodes 100 101)) 100 101 x ∧ x 1 = 1) /
      probOf (binary (blocks G2.nodes 100 101)) rbdProbs
        (Connected G2 (binary (blocks G2.nodes 100 101)) 100 101) := by
  have h := C91_limits_partial enumLib_ok g2_ok (by decide) (maxB := 8) (by decide)
  rw [if_pos g2_conn] at h
  refine ⟨_, h, ?_⟩
  congr

end BNS
