import Verif.Proofs.PowerPlot
import Verif.Props.PowerHouse

/-!
# Property C94: the map of the power network

`polesListed paths` are the poles on the paths, with repetitions; Python iterates over the set of
them in an order that it does not specify, so every theorem quantifies over that order.
-/

namespace BNS

set_option linter.unusedSectionVars false

section
variable {K : Type} [DecidableEq K]

/-- Every pole having a house at its head, as the demo demands: whatever the order in which the set
of poles is iterated over, each pole is connected from what feeds it on one of the paths (the
substation, or the house of the pole before it) to its house. -/
theorem C94_conn {paths : List (K × List (List K))} {houses : List (K × List K)}
    (hh : ∀ pl ∈ polesListed paths, ∃ x ∈ houses, pl ∈ x.2) :
    ∃ c : K → K × K,
      (∀ order, order.Nodup → (∀ x, x ∈ order ↔ x ∈ polesListed paths) →
        getPoleConn order paths houses = .ok (order.map fun pl => (pl, c pl))) ∧
      ∀ pl ∈ polesListed paths, HouseOf houses pl (c pl).2 ∧
        ∃ s p, IsPath paths s p ∧ HangsOn houses s p pl (c pl).1 := by
  have hall : ∀ pl, ∃ c : K × K, pl ∈ polesListed paths → HouseOf houses pl c.2 ∧
      (∃ s p, IsPath paths s p ∧ HangsOn houses s p pl c.1) ∧
      ∀ st, connStep paths houses st pl =
        .ok { tail := some c.1, head := some c.2, conn := itemSet st.conn pl c } := by
    intro pl
    by_cases hpl : pl ∈ polesListed paths
    · obtain ⟨t, h, h1, h2, h3⟩ := connStep_ok hh hpl
      exact ⟨(t, h), fun _ => ⟨h1, h2, h3⟩⟩
    · exact ⟨(pl, pl), fun h => absurd h hpl⟩
  choose c hc using hall
  refine ⟨c, fun order hn ho => ?_, fun pl hpl => ⟨(hc pl hpl).1, (hc pl hpl).2.1⟩⟩
  obtain ⟨st, h1, h2⟩ := conn_fold (paths := paths) (houses := houses) (c := c) order {}
    (fun pl hpl => (hc pl ((ho pl).1 hpl)).2.2) (by simpa using hn)
  unfold getPoleConn
  rw [h1, ok_bind, h2]
  simp [pure_ok]

theorem HouseOf.unique {houses : List (K × List K)} {pl h h' : K} (h1 : HouseOf houses pl h)
    (h2 : HouseOf houses pl h') : h = h' := by
  obtain ⟨l₁, a, l₂, rfl, ha, hl⟩ := h1
  obtain ⟨m₁, b, m₂, e, hb, hm⟩ := h2
  induction l₁ generalizing m₁ with
  | nil =>
    cases m₁ with
    | nil => simp only [List.nil_append, List.cons.injEq, Prod.mk.injEq] at e; exact e.1.1
    | cons x m₁ =>
      simp only [List.nil_append, List.cons_append, List.cons.injEq] at e
      have := hm x List.mem_cons_self
      rw [← e.1] at this
      exact absurd ha this
  | cons y l₁ ih =>
    cases m₁ with
    | nil =>
      simp only [List.nil_append, List.cons_append, List.cons.injEq] at e
      have := hl y List.mem_cons_self
      rw [e.1] at this
      exact absurd hb this
    | cons x m₁ =>
      simp only [List.cons_append, List.cons.injEq] at e
      exact ih (fun z hz => hl z (List.mem_cons_of_mem _ hz)) m₁ e.2
        (fun z hz => hm z (List.mem_cons_of_mem _ hz))

theorem chain_suffix {houses : List (K × List K)} {s : K} {p : List K} (hp : p.Nodup)
    {c : K → K × K} (h1 : ∀ pl ∈ p, HouseOf houses pl (c pl).2)
    (h2 : ∀ pl t, HangsOn houses s p pl t → (c pl).1 = t) (b : List K) :
    ∀ a t0, p = a ++ b → (a = [] → t0 = s) → (∀ a' q, a = a' ++ [q] → t0 = (c q).2) →
      b.map c = (t0 :: b.map fun pl => (c pl).2).zip (b.map fun pl => (c pl).2) := by
  induction b with
  | nil => intros; rfl
  | cons pl b ih =>
    intro a t0 he ha0 ha1
    have ht : (c pl).1 = t0 := by
      apply h2
      rcases List.eq_nil_or_concat a with rfl | ⟨a', q, rfl⟩
      · exact .inl ⟨b, by simpa using he, ha0 rfl⟩
      · refine .inr ⟨a', q, b, by simpa using he, ?_, ?_⟩
        · rw [he, List.nodup_append] at hp
          intro hm
          exact hp.2.2 pl (by simpa using hm) pl List.mem_cons_self rfl
        · rw [ha1 a' q (by simp)]
          exact h1 q (by rw [he]; simp)
    rw [List.map_cons, List.map_cons, List.zip_cons_cons,
      ih (a ++ [pl]) (c pl).2 (by simpa using he) (by simp) (by
        intro a' q e
        have := List.append_inj_right' e rfl
        simp only [List.cons.injEq, and_true] at this
        rw [this])]
    congr 1
    exact Prod.ext ht rfl

/-- In a radial network (whatever path one looks at, a pole is fed from the same place) the
connections of the poles of a path form a chain from the substation: each pole starts where the one
before it ends. -/
theorem C94_chain {paths : List (K × List (List K))} {houses : List (K × List K)}
    (hh : ∀ pl ∈ polesListed paths, ∃ x ∈ houses, pl ∈ x.2)
    (hr : ∀ pl s p t s' p' t', IsPath paths s p → HangsOn houses s p pl t →
      IsPath paths s' p' → HangsOn houses s' p' pl t' → t = t')
    {order : List K} (hn : order.Nodup) (ho : ∀ x, x ∈ order ↔ x ∈ polesListed paths) :
    ∃ conn, getPoleConn order paths houses = .ok conn ∧
      ∀ s p, IsPath paths s p → p.Nodup → ∃ hs : List K, List.Forall₂ (HouseOf houses) p hs ∧
        p.map (fun pl => conn.lookup pl) = ((s :: hs).zip hs).map some := by
  obtain ⟨c, h1, h2⟩ := C94_conn hh
  refine ⟨_, h1 order hn ho, fun s p hp hnp => ⟨p.map fun pl => (c pl).2, ?_, ?_⟩⟩
  · have hmem : ∀ pl ∈ p, pl ∈ polesListed paths := by
      obtain ⟨ps, hps, hpp⟩ := hp
      exact fun pl h => List.mem_flatMap.2 ⟨_, hps, List.mem_flatten.2 ⟨p, hpp, h⟩⟩
    rw [List.forall₂_map_right_iff, List.forall₂_same]
    exact fun pl h => (h2 pl (hmem pl h)).1
  · have hmem : ∀ pl ∈ p, pl ∈ polesListed paths := by
      obtain ⟨ps, hps, hpp⟩ := hp
      exact fun pl h => List.mem_flatMap.2 ⟨_, hps, List.mem_flatten.2 ⟨p, hpp, h⟩⟩
    have hlook : ∀ pl ∈ order, (order.map fun pl => (pl, c pl)).lookup pl = some (c pl) := by
      intro pl
      clear hn ho
      induction order with
      | nil => simp
      | cons a l ih =>
        intro h
        rw [List.map_cons, List.lookup_cons]
        by_cases e : pl = a
        · simp [e]
        · have e' : (pl == a) = false := by simpa using e
          rw [e']
          exact ih ((List.mem_cons.1 h).resolve_left e)
    have hmap : p.map (fun pl => (order.map fun pl => (pl, c pl)).lookup pl) = (p.map c).map some := by
      rw [List.map_map]
      exact List.map_congr_left fun pl h => hlook pl ((ho pl).2 (hmem pl h))
    rw [hmap, chain_suffix hnp (fun pl h => (h2 pl (hmem pl h)).1) (fun pl t ht => ?_) p [] s rfl
      (fun _ => rfl) (by simp)]
    have hpl : pl ∈ p := by
      rcases ht with ⟨r, rfl, -⟩ | ⟨a, q, r, rfl, -⟩ <;> simp
    obtain ⟨s', p', h3, h4⟩ := (h2 pl (hmem pl hpl)).2
    exact hr pl s' p' _ s p t h3 h4 hp ht

/-- Poles are put half way between the ends of their connection; nothing else moves. -/
theorem C94_midpoints {base : List (K × Pt)} {conn : List (K × (K × K))}
    (hn : (conn.map Prod.fst).Nodup)
    (hc : ∀ pp ∈ conn, ∃ a b, base.lookup pp.2.1 = some a ∧ base.lookup pp.2.2 = some b) :
    ∃ locs, addPoleLoc (some base) conn = .ok (some locs) ∧
      (∀ k, k ∉ conn.map Prod.fst → locs.lookup k = base.lookup k) ∧
      ∀ pl t h a b, (pl, (t, h)) ∈ conn → base.lookup t = some a → base.lookup h = some b →
        locs.lookup pl = some ((a.1 + b.1) / 2, (a.2 + b.2) / 2) := by
  obtain ⟨l, h1, h2⟩ := poleLoc_fold conn base hn hc
  refine ⟨l, ?_, h2⟩
  unfold addPoleLoc
  simp only [h1]
  rfl

/-- A connection to something without a location raises `KeyError`; a model without locations
`TypeError`. -/
theorem C94_midpoints_missing (conn : List (K × (K × K))) :
    (∀ base : List (K × Pt), (∃ pp ∈ conn, base.lookup pp.2.1 = none ∨ base.lookup pp.2.2 = none) →
      addPoleLoc (some base) conn = .error .key) ∧
    (conn ≠ [] → addPoleLoc none conn = .error .type) := by
  refine ⟨fun base hc => ?_, fun h => ?_⟩
  · unfold addPoleLoc
    simp only [poleLoc_missing conn base hc]
    rfl
  · unfold addPoleLoc
    rw [if_neg h]

/-- What is drawn: the connections from end to end, the structures at their locations, the labels
next to the locations.  A house is marked at its location only when the two coordinates are equal:
the first coordinate is used twice. -/
theorem C94_drawing_partial {locs : List (K × Pt)} {conn : List (K × (K × K))}
    {days pfs : List (K × ℚ)} {at' : K → Pt}
    (hc : ∀ pp ∈ conn, locs.lookup pp.2.1 = some (at' pp.2.1) ∧ locs.lookup pp.2.2 = some (at' pp.2.2))
    (hd : ∀ x ∈ days ++ pfs, locs.lookup x.1 = some (at' x.1)) :
    ∃ d, plotResult locs conn days pfs = .ok d ∧
      d.edges = conn.map (fun pp => (at' pp.2.1, at' pp.2.2)) ∧
      d.structs = pfs.map (fun sp => (at' sp.1, sp.2)) ∧
      d.texts = (days ++ pfs).map (fun x => (((at' x.1).1 + 1 / 10, (at' x.1).2 + 1 / 100), x.1)) ∧
      (d.houses = days.map (fun hd => (at' hd.1, hd.2)) ↔
        ∀ hd ∈ days, (at' hd.1).1 = (at' hd.1).2) := by
  have hget : ∀ k, locs.lookup k = some (at' k) → itemGet locs k = .ok (at' k) := fun k h => by
    rw [itemGet_itemsGet, itemsGet_some h]
  refine ⟨{ edges := conn.map fun pp => (at' pp.2.1, at' pp.2.2)
            houses := days.map fun hd => (((at' hd.1).1, (at' hd.1).1), hd.2)
            structs := pfs.map fun sp => (at' sp.1, sp.2)
            texts := (days.map Prod.fst ++ pfs.map Prod.fst).map fun x =>
              (((at' x).1 + 1 / 10, (at' x).2 + 1 / 100), x) }, ?_, rfl, rfl, ?_, ?_⟩
  · unfold plotResult
    rw [mapM_ok (g := fun pp : K × (K × K) => (at' pp.2.1, at' pp.2.2)) (fun pp h => by
        rw [hget _ (hc pp h).1, hget _ (hc pp h).2]; rfl), ok_bind,
      mapM_ok (g := fun hd : K × ℚ => (((at' hd.1).1, (at' hd.1).1), hd.2)) (fun x h => by
        rw [hget _ (hd x (List.mem_append_left _ h))]; rfl), ok_bind,
      mapM_ok (g := fun sp : K × ℚ => (at' sp.1, sp.2)) (fun x h => by
        rw [hget _ (hd x (List.mem_append_right _ h))]; rfl), ok_bind,
      mapM_ok (g := fun x : K => (((at' x).1 + 1 / 10, (at' x).2 + 1 / 100), x)) (fun x h => by
        rw [← List.map_append] at h
        obtain ⟨y, hy, rfl⟩ := List.mem_map.1 h
        rw [hget _ (hd y hy)]; rfl), ok_bind]
    rfl
  · simp only [List.map_append, List.map_map]
    rfl
  · simp only [List.map_inj_left, Prod.mk.injEq, and_true]
    constructor
    · exact fun h x hx => by rw [← h x hx]
    · exact fun h x hx => Prod.ext rfl (h x hx)

end

namespace PlotEx

open PowerEx (name)

def houses10 : List (Name × List Name) :=
  [(name "h0", [name "p0"]), (name "h1", [name "p1"]), (name "h2", [name "p2"]),
   (name "h3", [name "p3", name "p4"]), (name "h4", [name "p5"]), (name "h5", [name "p6"]),
   (name "h6", [name "p7"])]

def paths10 : List (Name × List (List Name)) :=
  [(name "s0", [[name "p0", name "p1"], [name "p2", name "p3", name "p5"]]),
   (name "s1", [[name "p4", name "p5"], [name "p6", name "p7"]])]

/-- The shipped network meets the hypotheses of `C94_conn`. -/
example : ∀ pl ∈ polesListed paths10, ∃ x ∈ houses10, pl ∈ x.2 := by decide +kernel

/-- The connections of the shipped network. -/
example : getPoleConn ([name "p0", name "p5", name "p4", name "p7"]) paths10 houses10 = .ok
    [(name "p0", (name "s0", name "h0")), (name "p5", (name "h3", name "h4")),
     (name "p4", (name "s1", name "h3")), (name "p7", (name "h5", name "h6"))] := by
  decide +kernel

def pathsB : List (Name × List (List Name)) := [(name "s", [[name "p0", name "p1"], [name "p2"]])]
def housesB : List (Name × List Name) := [(name "h0", [name "p0"]), (name "h1", [name "p1"])]

def housesC : List (Name × List Name) :=
  [(name "h0", [name "p0"]), (name "h1", [name "p1", name "p2"])]

/-- A network that meets the hypotheses of `C94_chain`: two poles in a row and one beside them. -/
example : (∀ pl ∈ polesListed pathsB, ∃ x ∈ housesC, pl ∈ x.2) ∧
    ∀ pl s p t s' p' t', IsPath pathsB s p → HangsOn housesC s p pl t →
      IsPath pathsB s' p' → HangsOn housesC s' p' pl t' → t = t' := by
  refine ⟨by decide +kernel, ?_⟩
  have key : ∀ s p pl t, IsPath pathsB s p → HangsOn housesC s p pl t →
      (pl = name "p0" ∧ t = name "s") ∨ (pl = name "p1" ∧ HouseOf housesC (name "p0") t) ∨
      (pl = name "p2" ∧ t = name "s") := by
    rintro s p pl t ⟨ps, h1, h2⟩ h3
    simp only [pathsB, List.mem_singleton, Prod.mk.injEq] at h1
    obtain ⟨rfl, rfl⟩ := h1
    simp only [List.mem_cons, List.not_mem_nil, or_false] at h2
    rcases h2 with rfl | rfl
    · rcases h3 with ⟨r, e, rfl⟩ | ⟨a, q, r, e, -, h⟩
      · simp only [List.cons.injEq] at e
        exact .inl ⟨e.1.symm, rfl⟩
      · rcases a with - | ⟨x, a⟩
        · simp only [List.nil_append, List.cons.injEq] at e
          exact .inr (.inl ⟨e.2.1.symm, e.1 ▸ h⟩)
        · have := congrArg List.length e
          simp at this
          omega
    · rcases h3 with ⟨r, e, rfl⟩ | ⟨a, q, r, e, -, h⟩
      · simp only [List.cons.injEq] at e
        exact .inr (.inr ⟨e.1.symm, rfl⟩)
      · have := congrArg List.length e
        simp at this
        omega
  intro pl s p t s' p' t' h1 h2 h3 h4
  have d1 : name "p0" ≠ name "p1" := by decide
  have d2 : name "p0" ≠ name "p2" := by decide
  have d3 : name "p1" ≠ name "p2" := by decide
  rcases key s p pl t h1 h2 with ⟨rfl, rfl⟩ | ⟨rfl, h⟩ | ⟨rfl, rfl⟩ <;>
  rcases key s' p' _ t' h3 h4 with ⟨e, e'⟩ | ⟨e, h'⟩ | ⟨e, e'⟩
  · exact e'.symm
  · exact absurd e d1
  · exact absurd e d2
  · exact absurd e d1.symm
  · exact h.unique h'
  · exact absurd e d3
  · exact absurd e d2.symm
  · exact absurd e d3.symm
  · exact e'.symm

end PlotEx

open PlotEx PowerEx in
/-- Why every pole needs a house: without one, the pole takes the house of whatever pole came before
it in the unspecified order, or the function raises. -/
theorem C94_not_without_house :
    getPoleConn [name "p0", name "p1", name "p2"] pathsB housesB = .ok
      [(name "p0", (name "s", name "h0")), (name "p1", (name "h0", name "h1")),
       (name "p2", (name "s", name "h1"))] ∧
    getPoleConn [name "p1", name "p0", name "p2"] pathsB housesB = .ok
      [(name "p1", (name "h0", name "h1")), (name "p0", (name "s", name "h0")),
       (name "p2", (name "s", name "h0"))] ∧
    getPoleConn [name "p2", name "p0", name "p1"] pathsB housesB = .error .unbound ∧
    getPoleConn [name "p2", name "p1", name "p0"] pathsB [(name "h0", [name "p1", name "p2"])] = .ok
      [(name "p2", (name "s", name "h0")), (name "p1", (name "s", name "h0")),
       (name "p0", (name "s", name "h0"))] := by
  refine ⟨?_, ?_, ?_, ?_⟩ <;> decide +kernel

open PowerEx in
/-- The houses of the shipped model are not marked where they are: `h1` is at (-8/5, -2) and its
cross at (-8/5, -8/5). -/
theorem C94_not_houses :
    ((plotResult [(name "h1", ((-8 / 5, -2) : Pt))] [] [(name "h1", 1)] []).toOption.map
      fun d => (d.houses, d.texts)) =
      some ([((-8 / 5, -8 / 5), 1)], [((-3 / 2, -199 / 100), name "h1")]) := by
  decide +kernel

/-- `main` never returns the distribution of a house: it calls a function its module does not have.
Nor does it ever draw a map of a network with structures. -/
theorem C94_not_main (m : PowerModel) (hList : List Name) (plot : Bool) (order : List Name)
    (h : hList ≠ [] ∨ plot = true ∧ m.pfs ≠ []) : ∃ e, powerMain m hList plot order = .error e := by
  unfold powerMain
  cases e1 : quantCpms m.haz m.pfs m.rep (houseLins m.paths m.houses) with
  | error e => exact ⟨e, rfl⟩
  | ok d =>
    rw [ok_bind]
    cases hList with
    | cons a l => exact ⟨.attribute, by rw [List.mapM_cons]; rfl⟩
    | nil =>
      obtain ⟨rfl, hp⟩ := h.resolve_left (by simp)
      rw [List.mapM_nil, pure_ok, ok_bind, if_pos rfl]
      cases e2 : getPoleConn order m.paths m.houses with
      | error e => exact ⟨e, rfl⟩
      | ok conn =>
        rw [ok_bind]
        cases e3 : addPoleLoc m.locs conn with
        | error e => exact ⟨e, rfl⟩
        | ok l =>
          rw [ok_bind]
          cases e4 : m.pfs with
          | nil => exact absurd e4 hp
          | cons a l => exact ⟨.attribute, by rw [List.mapM_cons]; rfl⟩

/-- When the model is accepted, the error is `AttributeError`. -/
theorem C94_main_attribute {m : PowerModel} {d : PowerDicts}
    (hd : quantCpms m.haz m.pfs m.rep (houseLins m.paths m.houses) = .ok d) (h : Name)
    (hs : List Name) (plot : Bool) (order : List Name) :
    powerMain m (h :: hs) plot order = .error .attribute := by
  unfold powerMain
  rw [hd, ok_bind, List.mapM_cons]
  rfl

end BNS
