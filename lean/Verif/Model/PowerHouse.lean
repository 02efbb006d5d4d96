import Verif.Model.Operation
import Verif.Model.ModelPy
import Verif.Model.CondVE
import Mathlib.Data.Char

/-!
# Model of `BNS_JT/demos/power_house/batch.py`

Names are strings, that is lists of characters, because the demo builds names from names; Python
compares strings like lists of code points.  Dictionaries are lists of items in insertion order.
Dictionaries given by the caller have distinct keys.
-/

namespace BNS

set_option linter.unusedSectionVars false

/-- Python strings.  power_house/batch.py:19-39, 86-173. -/
abbrev Name := List Char

/-- `get_lins(pole1, paths)` (power_house/batch.py:19-39). -/
def getLins (pole : Name) (paths : List (Name × List (List Name))) : List (List Name) :=
  paths.flatMap fun sp => sp.2.filterMap fun p =>
    if pole ∈ p then some (sp.1 :: p.take (p.idxOf pole + 1)) else none

/-- The link-sets of all houses (`main`, power_house/batch.py:297-305). -/
def houseLins (paths : List (Name × List (List Name))) (houses : List (Name × List Name)) :
    List (Name × List (List Name)) :=
  houses.map fun hp => (hp.1, hp.2.flatMap fun pl => getLins pl paths)

/-- `'haz'` and the names `f'x{s}'`, `f'n{s}'`, `f'c{s}'`, `h+str(i)`.  power_house/batch.py:93-99. -/
def hazName : Name := ['h', 'a', 'z']
/-- `f'x{s}'` (power_house/batch.py:107-116). -/
def xName (s : Name) : Name := 'x' :: s
/-- `f'n{s}'` (power_house/batch.py:118-136). -/
def nName (s : Name) : Name := 'n' :: s
/-- `f'c{s}'` (power_house/batch.py:138-155). -/
def cName (s : Name) : Name := 'c' :: s
/-- `h+str(i)` (power_house/batch.py:158-173). -/
def linkName (h : Name) (i : ℕ) : Name := h ++ Nat.toDigits 10 i

/-- The dictionaries `cpms` and `varis`.  power_house/batch.py:86-175. -/
abbrev PowerDicts := List (Name × Cpm Name) × List (Name × Variable Name)

/-- The values `list(range(k))`.  As in power_house/batch.py:93-99. -/
def rangeValues (k : ℕ) : List ℚ := (List.range k).map fun i : ℕ => (i : ℚ)

/-- Hazard (power_house/batch.py:93-99).  The labels of the hazards are replaced by their positions;
nothing reads them. -/
def powerHaz (haz : List (Name × ℚ)) : Except Err PowerDicts := do
  let v := Variable.mk' hazName (rangeValues haz.length) .dflt
  let M ← Cpm.mk' { vars := [v], noChild := 1, C := (List.range haz.length).map fun i => [i]
                    p := haz.map Prod.snd }
  return ([(hazName, M)], [(hazName, v)])

/-- `C_x` (power_house/batch.py:101-105). -/
def structRows (n : ℕ) : List (List ℕ) := (List.range n).flatMap fun hs => [[0, hs], [1, hs]]

/-- One structure (power_house/batch.py:107-116); the labels `'fail'`, `'surv'` are 0, 1. -/
def powerStruct (n : ℕ) (d : PowerDicts) (sp : Name × List ℚ) : Except Err PowerDicts := do
  let v := Variable.mk' (xName sp.1) [0, 1] .dflt
  let varis := itemSet d.2 (xName sp.1) v
  let vh ← itemGet varis hazName
  let M ← Cpm.mk' { vars := [v, vh], noChild := 1, C := structRows n
                    p := sp.2.flatMap fun p => [p, 1 - p] }
  return (itemSet d.1 (xName sp.1) M, varis)

/-- The rows `[v, 1, v]`, `[v + 1, 0, v]` (power_house/batch.py:129-132); the values of the number of
damaged structures are always `list(range(k))`, so values are states. -/
def countRows (k : ℕ) : List (List ℕ) := (List.range k).flatMap fun v => [[v, 1, v], [v + 1, 0, v]]

/-- The loop over `enumerate(rep_pri)` (power_house/batch.py:118-136), at position `i`; `old` is
`n_old`. -/
def powerCount : ℕ → Option Name → List Name → PowerDicts → Except Err PowerDicts
  | _, _, [], d => .ok d
  | i, old, s :: rest, d => do
    let v := Variable.mk' (nName s) (rangeValues (i + 2)) .dflt
    let varis := itemSet d.2 (nName s) v
    match old with
    | none => do
      let vx ← itemGet varis (xName s)
      let M ← Cpm.mk' { vars := [v, vx], noChild := 1, C := [[1, 0], [0, 1]], p := [1, 1] }
      powerCount (i + 1) (some (nName s)) rest (itemSet d.1 (nName s) M, varis)
    | some o => do
      let vo ← itemGet varis o
      let vx ← itemGet varis (xName s)
      let M ← Cpm.mk' { vars := [v, vx, vo], noChild := 1, C := countRows vo.values.length
                        p := (countRows vo.values.length).map fun _ => 1 }
      powerCount (i + 1) (some (nName s)) rest (itemSet d.1 (nName s) M, varis)

/-- The rows of the closure time (power_house/batch.py:150-153): `all` is the composite state of all
states, `k` the number of values. -/
def closureRows (all k : ℕ) : List (List ℕ) :=
  [0, 1, all] :: ((List.range k).filter fun v => 0 < v).map fun v => [v, 0, v]

/-- Closure time of one structure (power_house/batch.py:138-155).  When the table of `n{s}` is not
stored, `None.index` raises `AttributeError`, which is caught: the CPM is left out. -/
def powerClosure (d : PowerDicts) (s : Name) : Except Err PowerDicts := do
  let vn ← itemGet d.2 (nName s)
  let v := Variable.mk' (cName s) vn.values .dflt
  let varis := itemSet d.2 (cName s) v
  match vn.B with
  | none => return (d.1, varis)
  | some B => do
    let all ← pyIndex B (Finset.range vn.values.length)
    let vx ← itemGet varis (xName s)
    let M ← Cpm.mk' { vars := [v, vx, vn], noChild := 1, C := closureRows all vn.values.length
                      p := (closureRows all vn.values.length).map fun _ => 1 }
    return (itemSet d.1 (cName s) M, varis)

/-- `cpms[k], varis[k] = operation.sys_max_val(k, [varis['c'+x] for x in set])`
(power_house/batch.py:160-163, 167-170). -/
def powerLink (d : PowerDicts) (kl : Name × List Name) : Except Err PowerDicts := do
  let vs ← kl.2.mapM fun s => itemGet d.2 (cName s)
  let Mv ← sysMaxVal kl.1 vs
  return (itemSet d.1 kl.1 Mv.1, itemSet d.2 kl.1 Mv.2)

/-- Power-cut days of one house (power_house/batch.py:158-173). -/
def powerHouse (d : PowerDicts) (hs : Name × List (List Name)) : Except Err PowerDicts :=
  match hs.2 with
  | [set] => powerLink d (hs.1, set)
  | sets => do
    let names := (List.range sets.length).map (linkName hs.1)
    let d ← (names.zip sets).foldlM powerLink d
    let vs ← names.mapM (itemGet d.2)
    let Mv ← sysMinVal hs.1 vs
    return (itemSet d.1 hs.1 Mv.1, itemSet d.2 hs.1 Mv.2)

/-- `quant_cpms(haz, pfs, rep_pri, lins)` (power_house/batch.py:86-175). -/
def quantCpms (haz : List (Name × ℚ)) (pfs : List (Name × List ℚ)) (rep : List Name)
    (lins : List (Name × List (List Name))) : Except Err PowerDicts := do
  let d ← powerHaz haz
  let d ← pfs.foldlM (powerStruct haz.length) d
  let d ← powerCount 0 none rep d
  let d ← rep.foldlM powerClosure d
  lins.foldlM powerHouse d

end BNS
