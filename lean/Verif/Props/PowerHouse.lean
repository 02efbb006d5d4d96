import Verif.Proofs.PowerHouseSum

/-!
# Property C89: power-cut days of houses (demos/power_house)
-/

namespace BNS

set_option linter.unusedSectionVars false

theorem take_idxOf {pole : Name} : ∀ {p : List Name}, pole ∈ p →
    p.take (p.idxOf pole + 1) = p.takeWhile (· ≠ pole) ++ [pole]
  | [], h => by simp at h
  | q :: p, h => by
    by_cases e : q = pole
    · subst e
      simp
    · have h' := (List.mem_cons.1 h).resolve_left (Ne.symm e)
      rw [List.idxOf_cons_ne p e, List.take_succ_cons, take_idxOf h']
      simp [e]

/-- `get_lins(pole, paths)`: one link for every path through the pole, in the order of the paths,
made of the substation and the poles of the path up to the first occurrence of the pole. -/
theorem C89_links (pole : Name) (paths : List (Name × List (List Name))) :
    getLins pole paths = paths.flatMap fun sp => (sp.2.filter fun p => pole ∈ p).map fun p =>
      sp.1 :: (p.takeWhile (· ≠ pole) ++ [pole]) := by
  unfold getLins
  congr 1
  funext sp
  induction sp.2 with
  | nil => rfl
  | cons p l ih =>
    rw [List.filterMap_cons, List.filter_cons]
    by_cases hp : pole ∈ p
    · simp only [hp, if_true, decide_true, List.map_cons]
      rw [← ih, take_idxOf hp]
    · simp only [hp, if_false, decide_false, Bool.false_eq_true]
      exact ih

/-- `quant_cpms` succeeds, and the network it builds is right: eliminating, in any order, all
variables but the houses `keep` gives the joint distribution of their power-cut days.  Structures
fail independently given the hazard, the damaged ones are repaired one a day in the order of
priority, a link works when all its structures do, a house when one of its links does. -/
theorem C89_cut_days_partial {haz : List (Name × ℚ)} {pfs : List (Name × List ℚ)} {rep : List Name}
    {lins : List (Name × List (List Name))} (h : PowerOK haz pfs rep lins) :
    ∃ d, quantCpms haz pfs rep lins = .ok d ∧ ∀ keep : List Name, keep ≠ [] →
      (∀ k ∈ keep, k ∈ lins.map Prod.fst) →
      ∀ ve : List (Variable Name), ve.Perm ((d.2.map Prod.snd).filter fun v => v.name ∉ keep) →
      ∃ P, variableElim (d.1.map Prod.snd) ve = .ok P ∧ (∀ k, k ∈ P.getNames ↔ k ∈ keep) ∧
        ∀ x, dens P x = damageProb haz pfs fun down =>
          ∀ hs ∈ lins, hs.1 ∈ keep → x hs.1 = cutDays rep hs.2 down :=
  power_elim h

namespace PowerEx

def name (s : String) : Name := s.toList

def haz : List (Name × ℚ) := [(name "mild", 1/2), (name "medi", 1/5), (name "inte", 3/10)]
def pa : List ℚ := [1/1000, 1/100, 1/10]
def pb : List ℚ := [5/1000, 5/100, 2/10]

/-- Two substations and two poles. -/
def rep : List Name := [name "s0", name "s1", name "p0", name "p1"]
def pfs : List (Name × List ℚ) := [(name "s0", pa), (name "s1", pb), (name "p0", pa), (name "p1", pb)]
def paths : List (Name × List (List Name)) :=
  [(name "s0", [[name "p0"]]), (name "s1", [[name "p1"]])]
def houses : List (Name × List Name) := [(name "h0", [name "p0", name "p1"]), (name "h1", [name "p1"])]

theorem links : houseLins paths houses =
    [(name "h0", [[name "s0", name "p0"], [name "s1", name "p1"]]),
     (name "h1", [[name "s1", name "p1"]])] := by decide +kernel

/-- Non-vacuity of `C89_cut_days_partial`. -/
theorem ok : PowerOK haz pfs rep (houseLins paths houses) where
  hazards := by decide +kernel
  probs := by decide +kernel
  repairs := by decide +kernel
  links := by decide +kernel
  names := by decide +kernel

/-- The model of the demo as shipped. -/
def rep10 : List Name := ["s0", "s1", "p0", "p1", "p2", "p3", "p4", "p5", "p6", "p7"].map name
def pfs10 : List (Name × List ℚ) := rep10.zip [pa, pb, pa, pb, pa, pb, pa, pb, pa, pb]
def paths10 : List (Name × List (List Name)) :=
  [(name "s0", [[name "p0", name "p1"], [name "p2", name "p3", name "p5"]]),
   (name "s1", [[name "p4", name "p5"], [name "p6", name "p7"]])]
def houses10 : List (Name × List Name) :=
  [(name "h0", [name "p0"]), (name "h1", [name "p1"]), (name "h2", [name "p2"]),
   (name "h3", [name "p3", name "p4"]), (name "h4", [name "p5"]), (name "h5", [name "p6"]),
   (name "h6", [name "p7"])]

/-- A smaller network: two hazards, two structures, a house that depends on both. -/
def haz2 : List (Name × ℚ) := [(name "mild", 7/10), (name "inte", 3/10)]
def pfs2 : List (Name × List ℚ) := [(name "s0", [1/1000, 1/10]), (name "s1", [1/100, 2/10])]
def rep2 : List Name := [name "s0", name "s1"]
def lins2 : List (Name × List (List Name)) := [(name "h0", [[name "s0", name "s1"]])]

/-- The elimination order that `main` builds. -/
def order2 : List Name :=
  hazName :: (rep2.flatMap fun s => [xName s, nName s, cName s]) ++ [name "h0"]

/-- Two houses whose names clash: the first one has two links, `h10` and `h11`. -/
def clash : List (Name × List (List Name)) :=
  [(name "h1", [[name "s0"], [name "s1"]]), (name "h10", [[name "p0"]])]

end PowerEx

open PowerEx

/-- The distribution of house `h0` of the smaller network. -/
example : ((quantCpms haz2 pfs2 rep2 lins2).bind fun d =>
    variableElim (d.1.map Prod.snd) ((d.2.map Prod.snd).filter fun v =>
      v.name ∉ [name "h0"])).toOption.map (fun P => (P.C, P.p)) =
    some ([[0], [1], [2]], [908307 / 1000000, 85686 / 1000000, 6007 / 1000000]) := by
  decide +kernel

/-- With the model shipped with the demo, `quant_cpms` raises `AttributeError`. -/
theorem C89_shipped_raises :
    quantCpms haz pfs10 rep10 (houseLins paths10 houses10) = .error .attribute := by
  decide +kernel

theorem PowerEx.six : ∃ d v, quantCpms haz (pfs10.take 6) (rep10.take 6)
    [(name "h0", [[name "s0"]])] = .ok d ∧ (name "cp3", v) ∈ d.2 ∧ v.name = name "cp3" ∧
    ∀ M ∈ d.1.map Prod.snd, name "cp3" ∉ M.getNames := by
  have h : ((quantCpms haz (pfs10.take 6) (rep10.take 6) [(name "h0", [[name "s0"]])]).toOption.map
      fun d => ((d.2.find? fun kv => kv.1 = name "cp3").map fun kv => kv.2.name,
        decide (∀ M ∈ d.1.map Prod.snd, name "cp3" ∉ M.getNames))) =
        some (some (name "cp3"), true) := by
    decide +kernel
  cases e : quantCpms haz (pfs10.take 6) (rep10.take 6) [(name "h0", [[name "s0"]])] with
  | error e' => rw [e] at h; cases h
  | ok d =>
    rw [e] at h
    have h1 : ((d.2.find? fun kv => kv.1 = name "cp3").map fun kv => kv.2.name,
        decide (∀ M ∈ d.1.map Prod.snd, name "cp3" ∉ M.getNames)) =
        (some (name "cp3"), true) := Option.some.inj h
    obtain ⟨h2, h3⟩ := Prod.mk.inj h1
    obtain ⟨kv, hkv, hn⟩ := Option.map_eq_some_iff.1 h2
    have hk : kv.1 = name "cp3" := by simpa using List.find?_some hkv
    refine ⟨d, kv.2, rfl, ?_, hn, of_decide_eq_true h3⟩
    rw [← hk]
    exact List.mem_of_find?_eq_some hkv

/-- With six structures, `quant_cpms` succeeds without a CPM for the closure time of the last one:
its table of composite states is not stored.  The variable is in the dictionary of variables, and
eliminating it raises, although the house does not depend on it. -/
theorem C89_six_structures : ∃ d v, quantCpms haz (pfs10.take 6) (rep10.take 6)
    [(name "h0", [[name "s0"]])] = .ok d ∧ (name "cp3", v) ∈ d.2 ∧ name "cp3" ∉ d.1.map Prod.fst ∧
    ∀ ve, variableElim (d.1.map Prod.snd) (v :: ve) = .error .assertion := by
  obtain ⟨d, v, h1, h2, h3, h4⟩ := PowerEx.six
  refine ⟨d, v, h1, h2, ?_, fun ve => C15_unknown_raises _ v ve (h3 ▸ h4)⟩
  have h : ((quantCpms haz (pfs10.take 6) (rep10.take 6) [(name "h0", [[name "s0"]])]).toOption.map
      fun d => decide (name "cp3" ∈ d.1.map Prod.fst)) = some false := by decide +kernel
  rw [h1] at h
  exact of_decide_eq_false (Option.some.inj h)

/-- The closure time of the sixth structure is a parent of the house, but no CPM defines it. -/
theorem C89_six_structures_dependent :
    ((quantCpms haz (pfs10.take 6) (rep10.take 6) [(name "h0", [[name "p3"]])]).toOption.map
      fun d => (d.1.map Prod.snd).filterMap fun M =>
        if name "cp3" ∈ M.getNames then some M.getNames else none) =
      some [[name "h0", name "cp3"]] := by
  decide +kernel

/-- Why the names have to be distinct: the first link of house `h1` is called `h10`, and a house of
that name silently replaces it.  The distribution of `h1` is then wrong. -/
theorem C89_name_clash :
    (((quantCpms haz (pfs10.take 3) (rep10.take 3) clash).bind fun d =>
      variableElim (d.1.map Prod.snd) ((d.2.map Prod.snd).filter fun v =>
        v.name ∉ [name "h1"])).toOption.map fun P => (P.C, P.p)) =
        some ([[0]], [396591201 / 400000000]) ∧
    damageProb haz (pfs10.take 3) (fun down => 0 = cutDays (rep10.take 3) [[name "s0"], [name "s1"]] down)
      = 397559 / 400000 ∧
    damageProb haz (pfs10.take 3) (fun down => 1 = cutDays (rep10.take 3) [[name "s0"], [name "s1"]] down)
      = 2441 / 400000 := by
  refine ⟨?_, ?_, ?_⟩
  · decide +kernel
  · decide +kernel
  · decide +kernel

/-- A house whose poles are on no path gets a CPM without rows: no number of days has a
probability. -/
theorem C89_no_link : getLins (name "p9") paths = [] ∧
    ((quantCpms haz pfs rep [(name "h0", [])]).toOption.bind fun d =>
      (d.1.getLast?).map fun kM => (kM.1, kM.2.C, kM.2.p)) = some (name "h0", [], []) := by
  refine ⟨?_, ?_⟩
  · decide +kernel
  · decide +kernel

/-- `main` computes the distribution of a house with `cal_Msys_by_cond_VE` conditioned on the hazard
(a function that the module it names does not have).  That function, of the module that has it,
raises `AssertionError` on networks on which the elimination above succeeds. -/
theorem C89_conditional_raises : PowerOK haz2 pfs2 rep2 lins2 ∧
    ((quantCpms haz2 pfs2 rep2 lins2).bind fun d =>
      calMsysByCondVE d.1 d.2 [hazName] order2 (name "h0")) = .error .assertion := by
  refine ⟨⟨?_, ?_, ?_, ?_, ?_⟩, ?_⟩
  · decide +kernel
  · decide +kernel
  · decide +kernel
  · decide +kernel
  · decide +kernel
  · decide +kernel

end BNS
