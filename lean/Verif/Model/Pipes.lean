import Verif.Spec.Pipes
import Verif.Model.Flow

/-!
# Model of `BNS_JT/pipes_sys.py`

`scipy.optimize.milp` is a parameter `lib` (contract: `MilpLibOK`).  The matrix `A` and the vectors
`b_down`, `b_up` are one list of rows.  `node_coords`, which no function reads, is left out.
-/

namespace BNS

section
variable {E K : Type} [DecidableEq E] [DecidableEq K]

/-- `a_i[0][i] = v`.  pipes_sys.py:6-26, 96-113. -/
def setEntry (row : List ℚ) (i : ℕ) (v : ℚ) : Except Err (List ℚ) :=
  if i < row.length then .ok (row.set i v) else .error .index

/-- `a_i[0][i] = v` where a branch of the `if` applies.  As in pipes_sys.py:15-20, 81-87. -/
def setSome (row : List ℚ) (i : ℕ) : Option ℚ → Except Err (List ℚ)
  | some v => setEntry row i v
  | none => .ok row

/-- `if p[0] == o_i: 1` (pipes_sys.py:19-20). -/
def coefOut (n : K) (p : K × K) : Option ℚ := if p.1 = n then some 1 else none

/-- `if pair[1] == n: 1` (pipes_sys.py:65-66). -/
def coefIn (n : K) (p : K × K) : Option ℚ := if p.2 = n then some 1 else none

/-- `if pair[0] == n: 1 elif pair[1] == n: -1` (pipes_sys.py:48-51, 84-87). -/
def coefNet (n : K) (p : K × K) : Option ℚ :=
  if p.1 = n then some 1 else if p.2 = n then some (-1) else none

/-- The loop over all arcs (pipes_sys.py:15-20, 81-87). -/
def fillAll (esIdx : List (E × ℕ)) (coef : K × K → Option ℚ) (edges : List (E × K × K))
    (row : List ℚ) : Except Err (List ℚ) :=
  edges.foldlM (fun row ep => do
    let i ← itemsGet esIdx ep.1
    setSome row i (coef ep.2)) row

/-- The loop over the arcs of a subsystem (pipes_sys.py:44-51, 61-66). -/
def fillSub (S : PipeSys E K) (esIdx : List (E × ℕ)) (coef : K × K → Option ℚ) (es : List E)
    (row : List ℚ) : Except Err (List ℚ) :=
  es.foldlM (fun row e => do
    let p ← itemsGet S.edges e
    let i ← itemsGet esIdx e
    setSome row i (coef p)) row

/-- `np.zeros((1, n))`.  As in pipes_sys.py:6-26. -/
def zeros (n : ℕ) : List ℚ := List.replicate n 0

/-- `do_node` (pipes_sys.py:6-26): one row for every origin.  `orig_end_inds[o]` is the position of
`o` (of its last occurrence) among the origins. -/
def doNode (S : PipeSys E K) (esIdx : List (E × ℕ)) (orig : List K) (rows : List LinRow) :
    Except Err (List LinRow) :=
  orig.foldlM (fun rows o => do
    let row ← setEntry (zeros (S.edges.length + orig.length))
      (S.edges.length + (orig.length - 1 - orig.reverse.idxOf o)) (-1)
    let row ← fillAll esIdx (coefOut o) S.edges row
    return rows ++ [(row, 0, 0)]) rows

/-- One node of a subsystem (pipes_sys.py:38-55). -/
def subNode (S : PipeSys E K) (esIdx : List (E × ℕ)) (n m : ℕ) (prev now : List K)
    (rows : List LinRow) (v : K) : Except Err (List LinRow) :=
  if v ∉ prev ∧ v ∉ now then do
    let es ← pyGet S.subEdges m
    let row ← fillSub S esIdx (coefNet v) es (zeros n)
    return rows ++ [(row, 0, 0)]
  else return rows

/-- `a_i[0][no_x:no_d_vars] = -1` on a row of zeros (pipes_sys.py:58-59). -/
def totalRow (nx n : ℕ) : List ℚ := List.replicate nx 0 ++ List.replicate (n - nx) (-1)

/-- One subsystem (pipes_sys.py:35-70). -/
def doSub1 (S : PipeSys E K) (esIdx : List (E × ℕ)) (n : ℕ) (rows : List LinRow) (m : ℕ) :
    Except Err (List LinRow) := do
  let prev ← pyGet S.depots m
  let now ← pyGet S.depots (m + 1)
  let ns ← pyGet S.subNodes m
  let rows ← ns.foldlM (subNode S esIdx n m prev now) rows
  let row ← now.foldlM (fun row v => do
    let es ← pyGet S.subEdges m
    fillSub S esIdx (coefIn v) es row) (totalRow S.edges.length n)
  return rows ++ [(row, 0, 0)]

/-- `do_sub` (pipes_sys.py:29-72). -/
def doSub (S : PipeSys E K) (esIdx : List (E × ℕ)) (n : ℕ) (rows : List LinRow) :
    Except Err (List LinRow) := (List.range S.subNodes.length).foldlM (doSub1 S esIdx n) rows

/-- `do_incoming` (pipes_sys.py:75-93). -/
def doIncoming (S : PipeSys E K) (esIdx : List (E × ℕ)) (n : ℕ) (rows : List LinRow) :
    Except Err (List LinRow) :=
  ((List.range S.subNodes.length).drop 1).foldlM (fun rows m => do
    let dep ← pyGet S.depots m
    dep.foldlM (fun rows v => do
      let row ← fillAll esIdx (coefNet v) S.edges (zeros n)
      return rows ++ [(row, 0, 0)]) rows) rows

/-- The capacity of an arc (pipes_sys.py:99-103). -/
def arcCap (S : PipeSys E K) (comps : List (K × ℕ)) (ep : E × K × K) : Except Err ℚ := do
  let x ← itemsGet S.e2c ep.1
  let v ← itemsGet S.varis x
  let s ← itemsGet comps x
  let c ← pyGet v.values s
  let s0 ← itemsGet comps ep.2.1
  if s0 = 0 then return 0 else do
    let s1 ← itemsGet comps ep.2.2
    if s1 = 0 then return 0 else return c

/-- `do_capacity` (pipes_sys.py:96-113). -/
def doCapacity (S : PipeSys E K) (esIdx : List (E × ℕ)) (comps : List (K × ℕ)) (n : ℕ)
    (rows : List LinRow) : Except Err (List LinRow) :=
  S.edges.foldlM (fun rows ep => do
    let c ← arcCap S comps ep
    let i ← itemsGet esIdx ep.1
    let row ← setEntry (zeros n) i 1
    return rows ++ [(row, 0, c)]) rows

/-- `run_pipes_fun` (pipes_sys.py:116-162).  `dest_end_inds`, which is never used, is left
out. -/
def runPipesFun (lib : List ℚ → List LinRow → MilpRes) (S : PipeSys E K) (esIdx : List (E × ℕ))
    (comps : List (K × ℕ)) : Except Err MilpRes := do
  let orig ← pyGet S.depots 0
  let n := S.edges.length + orig.length
  let rows ← doNode S esIdx orig []
  let rows ← doSub S esIdx n rows
  let rows ← doIncoming S esIdx n rows
  let rows ← doCapacity S esIdx comps n rows
  return lib (totalRow S.edges.length n) rows

/-- `if k not in min_comps_st: min_comps_st[k] = comps_st[k]` (pipes_sys.py:189-199). -/
def addState (comps : List (K × ℕ)) (r : Rule K) (k : K) : Except Err (Rule K) :=
  if k ∈ r.map Prod.fst then .ok r else do
    let s ← itemsGet comps k
    return r ++ [(k, s)]

/-- The entries of `min_comps_st` for one arc (pipes_sys.py:182-199). -/
def pipeRule (S : PipeSys E K) (esIdx : List (E × ℕ)) (comps : List (K × ℕ)) (x : List ℚ) (r : Rule K)
    (ep : E × K × K) : Except Err (Rule K) := do
  let i ← itemsGet esIdx ep.1
  let v ← pyGet x i
  if 0 < v then do
    let k ← itemsGet S.e2c ep.1
    let r ← addState comps r k
    let r ← addState comps r ep.2.1
    addState comps r ep.2.2
  else return r

/-- `sys_fun_pipes` (pipes_sys.py:165-201).  Without success the value is `0`; if that is enough, `res.x`
is `None` and reading it is a `TypeError` (unless there is no arc). -/
def sysFunPipes (lib : List ℚ → List LinRow → MilpRes) (comps : List (K × ℕ)) (thres : ℚ)
    (S : PipeSys E K) (esIdx : List (E × ℕ)) : Except Err (ℚ × St × Rule K) := do
  let res ← runPipesFun lib S esIdx comps
  match res with
  | some r =>
    if -r.1 < thres then return (-r.1, .f, [])
    else do
      let rule ← S.edges.foldlM (pipeRule S esIdx comps r.2) []
      return (-r.1, .s, rule)
  | none =>
    if 0 < thres then return (0, .f, [])
    else do
      let _ ← S.edges.mapM fun ep => do
        let _ ← itemsGet esIdx ep.1
        (.error .type : Except Err Unit)
      return (0, .s, [])

/-- `sys_fun_pipes` as the system function of `run`, called with the components of `vs`.  An exception is
shown as state `'u'`.  pipes_sys.py:165-203, called from brc.py:347-372. -/
def pipesSysFun (lib : List ℚ → List LinRow → MilpRes) (thres : ℚ) (S : PipeSys E K)
    (esIdx : List (E × ℕ)) (vs : List (K × ℕ)) (x : K → ℕ) : SysRes K :=
  match sysFunPipes lib (compsOf vs x) thres S esIdx with
  | .ok r => { val := r.1, st := r.2.1, min := r.2.2 }
  | .error _ => { val := 0, st := .u, min := [] }

end

end BNS
