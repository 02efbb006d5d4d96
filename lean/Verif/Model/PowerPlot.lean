import Verif.Model.PowerHouse

/-!
# Model of the mapping functions of `BNS_JT/demos/power_house/batch.py`

Coordinates are rational pairs.  A drawing is the list of what is handed to the plotting library:
line segments, marked points with their colour value, and labels.  Colour bars, ticks and the image
file are left out.
-/

namespace BNS

set_option linter.unusedSectionVars false

/-- A point.  power_house/batch.py:216-217. -/
abbrev Pt := ℚ × ℚ

section
variable {K : Type} [DecidableEq K]

/-- `poles` before `set(poles)` (power_house/batch.py:180-183). -/
def polesListed (paths : List (K × List (List K))) : List K :=
  paths.flatMap fun sp => sp.2.flatten

/-- The loop over the houses with `break` (power_house/batch.py:197-200, 203-206): the first house
listing the pole; without one the variable keeps the value it had, if any. -/
def firstHouse (houses : List (K × List K)) (pl : K) (old : Option K) : Option K :=
  match houses.find? fun h => pl ∈ h.2 with
  | some h => some h.1
  | none => old

/-- One substation for one pole (power_house/batch.py:188-201): `old` is the value of `pl_tail`
before.  Only the first path containing the pole is looked at. -/
def subTail (houses : List (K × List K)) (pl : K) (old : Option K)
    (sp : K × List (List K)) : Option K :=
  match sp.2.find? fun p => pl ∈ p with
  | none => old
  | some p =>
    if p.idxOf pl < 1 then some sp.1
    else
      match p[p.idxOf pl - 1]? with
      | some q => firstHouse houses q old
      | none => old

/-- The variables of the loop over the poles: `pl_tail`, `pl_head` (`none`: not bound yet) and
`conn`.  As in power_house/batch.py:187-207. -/
structure ConnState (K : Type) where
  tail : Option K := none
  head : Option K := none
  conn : List (K × (K × K)) := []

/-- One pole (power_house/batch.py:187-207).  `pl_tail` and `pl_head` survive from one pole to the
next; reading one that is not bound raises `UnboundLocalError`. -/
def connStep (paths : List (K × List (List K))) (houses : List (K × List K))
    (st : ConnState K) (pl : K) : Except Err (ConnState K) :=
  let tail := paths.foldl (subTail houses pl) st.tail
  let head := firstHouse houses pl st.head
  match tail, head with
  | some t, some h => .ok { tail := some t, head := some h, conn := itemSet st.conn pl (t, h) }
  | _, _ => .error .unbound

/-- `get_pole_conn(paths, houses)` (power_house/batch.py:178-209).  The poles are iterated over as a
set, in an order Python does not specify: `order` is that order. -/
def getPoleConn (order : List K) (paths : List (K × List (List K)))
    (houses : List (K × List K)) : Except Err (List (K × (K × K))) := do
  let st ← order.foldlM (connStep paths houses) {}
  return st.conn

/-- One pole of `add_pole_loc` (power_house/batch.py:216-217); `base` is `locs_sub_hou`. -/
def poleLoc (base : List (K × Pt)) (locs : List (K × Pt)) (pp : K × (K × K)) :
    Except Err (List (K × Pt)) := do
  let a ← itemGet base pp.2.1
  let b ← itemGet base pp.2.2
  return itemSet locs pp.1 (1 / 2 * (a.1 + b.1), 1 / 2 * (a.2 + b.2))

/-- `add_pole_loc(locs_sub_hou, conn_pol)` (power_house/batch.py:212-219).  `none` is the `None` that
`read_model_json` returns for a model without locations; `None[...]` is a `TypeError`. -/
def addPoleLoc (base : Option (List (K × Pt))) (conn : List (K × (K × K))) :
    Except Err (Option (List (K × Pt))) :=
  match base with
  | some base => do
    let l ← conn.foldlM (poleLoc base) base
    return some l
  | none => if conn = [] then .ok none else .error .type

/-- What `plot_result` draws.  power_house/batch.py:222-251. -/
structure Drawing (K : Type) where
  edges : List (Pt × Pt)
  houses : List (Pt × ℚ)
  structs : List (Pt × ℚ)
  texts : List (Pt × K)

/-- `plot_result(locs, conn, avg_cut_days, pfs_mar)` (power_house/batch.py:222-251).  Line 233 takes
`locs[h][0]` for both coordinates of a house. -/
def plotResult (locs : List (K × Pt)) (conn : List (K × (K × K)))
    (days pfs : List (K × ℚ)) : Except Err (Drawing K) := do
  let edges ← conn.mapM fun pp => do
    let a ← itemGet locs pp.2.1
    let b ← itemGet locs pp.2.2
    return (a, b)
  let houses ← days.mapM fun hd => do
    let a ← itemGet locs hd.1
    return ((a.1, a.1), hd.2)
  let structs ← pfs.mapM fun sp => do
    let a ← itemGet locs sp.1
    return (a, sp.2)
  let texts ← (days.map Prod.fst ++ pfs.map Prod.fst).mapM fun x => do
    let a ← itemGet locs x
    return ((a.1 + 1 / 10, a.2 + 1 / 100), x)
  return { edges := edges, houses := houses, structs := structs, texts := texts }

end

/-- The contents of a model file (`read_model_json`, power_house/batch.py:42-72).  Rebuilding the
dictionaries item by item changes nothing. -/
structure PowerModel where
  haz : List (Name × ℚ)
  pfs : List (Name × List ℚ)
  rep : List Name
  paths : List (Name × List (List Name))
  houses : List (Name × List Name)
  locs : Option (List (Name × Pt))

/-- `cpm.cal_Msys_by_cond_VE(...)` (power_house/batch.py:328, 349): the module `cpm` has no function
of that name, so that evaluating it raises `AttributeError`. -/
def missingVE (_ : Name) : Except Err (Cpm Name) := .error .attribute

/-- `main(h_list, model_json, plot)` (power_house/batch.py:255-355) on a model that was read, without
the elimination order, which is only handed to the missing function.  `get_means` and `get_prob` of
a distribution are not reached. -/
def powerMain (m : PowerModel) (hList : List Name) (plot : Bool) (order : List Name) :
    Except Err (List (Name × Cpm Name)) := do
  let _ ← quantCpms m.haz m.pfs m.rep (houseLins m.paths m.houses)
  let mhs ← hList.mapM fun h => do
    let M ← missingVE h
    return (h, M)
  if plot then do
    let conn ← getPoleConn order m.paths m.houses
    let _ ← addPoleLoc m.locs conn
    let _ ← m.pfs.mapM fun s => missingVE (xName s.1)
    return mhs
  else return mhs

end BNS
