import Verif.Model.Variable
import Verif.Model.Brc
import Verif.Model.Csys

/-!
# Model of the objects of `variable.py` and `branch.py` as objects

The other modules treat a variable as its name, values and table, and a branch as two vectors, two
labels and a probability.  Here are the parts that show in Python only because they are objects:
attributes may be set later, lists are shared, `==` and `hash` are defined by the classes.
-/

namespace BNS

variable {K : Type}

/-- A `Variable` object (variable.py:64-119).  `values` is a reference to a list. -/
structure VObj (K : Type) where
  name : K
  cell : ℕ
  flag : BFlag
  B : Option (List (Finset ℕ))

/-- The lists and `Variable` objects that exist.  Tables `B` are not shared in the model: `gen_B`
makes a new list each time, and a list passed to `update_B` is taken not to be edited afterwards.
variable.py:76-119. -/
structure VHeap (K : Type) where
  lists : List (List ℚ)
  objs : List (VObj K)

/-- At the start there is one list, the default argument `values=[]` of `Variable.__init__`
(variable.py:76). -/
def VHeap.start : VHeap K := { lists := [[]], objs := [] }

/-- What methods of the object work with.  variable.py:76-119, 272-279. -/
def VHeap.view (s : VHeap K) (o : VObj K) : Variable K :=
  { name := o.name, values := s.lists.getD o.cell [], B := o.B }

/-- What a program can do with variables.  variable.py:76-119, 272-279. -/
inductive VOp (K : Type) where
  /-- make a list -/
  | newList (xs : List ℚ)
  /-- `Variable(name, values, B_flag)`, or `Variable(name, B_flag=…)` -/
  | new (name : K) (values : Option ℕ) (flag : BFlag)
  /-- `v.values = xs` -/
  | setValues (i : ℕ) (cell : ℕ)
  /-- `xs.append(x)`, where `xs` may be `v.values` -/
  | append (cell : ℕ) (x : ℚ)
  /-- `v.B_flag = flag` -/
  | setFlag (i : ℕ) (flag : BFlag)
  /-- `v.B = B` -/
  | setB (i : ℕ) (B : Option (List (Finset ℕ)))
  /-- `v.update_B(val)` -/
  | updateB (i : ℕ) (val : Option (List (Finset ℕ)))

/-- `Variable.__init__` and the setters (variable.py:76-119), `update_B` (variable.py:272-279). -/
def VHeap.step (s : VHeap K) : VOp K → VHeap K
  | .newList xs => { s with lists := s.lists ++ [xs] }
  | .new name values flag =>
    { s with objs := s.objs ++ [{ name, cell := values.getD 0, flag
                                  B := (Variable.mk' name (s.lists.getD (values.getD 0) []) flag).B }] }
  | .setValues i c => { s with objs := s.objs.modify i fun o => { o with cell := c } }
  | .append c x => { s with lists := s.lists.modify c (· ++ [x]) }
  | .setFlag i f => { s with objs := s.objs.modify i fun o => { o with flag := f } }
  | .setB i B => { s with objs := s.objs.modify i fun o => { o with B := B } }
  | .updateB i val =>
    { s with objs := s.objs.modify i fun o => { o with B := ((s.view o).updateB o.flag val).B } }

/-- A key of a dictionary: a variable or a string.  variable.py:301-311. -/
inductive VKey (K : Type) where
  | var (v : VObj K)
  | str (k : K)

/-- `Variable.__eq__` (variable.py:306-311), also when the variable is on the right: a string does
not know how to compare with a variable, so Python asks the variable. -/
def VKey.eq [DecidableEq K] : VKey K → VKey K → Bool
  | .var v, .var w => v.name = w.name
  | .var v, .str k => v.name = k
  | .str k, .var v => v.name = k
  | .str k, .str l => k = l

/-- `Variable.__hash__` (variable.py:301-303) and the hash of a string. -/
def VKey.hash (h : K → ℕ) : VKey K → ℕ
  | .var v => h v.name
  | .str k => h k

/-- `d[k]` of a dictionary: the entry whose key has the same hash and is equal.
By the methods of variable.py:301-311. -/
def keyGet [DecidableEq K] {A : Type} (h : K → ℕ) (d : List (VKey K × A)) (k : VKey K) :
    Except Err A :=
  match d.find? fun e => decide (e.1.hash h = k.hash h) && e.1.eq k with
  | some e => .ok e.2
  | none => .error .key

/-- `d[k] = a`: an existing entry keeps its key.  By the methods of variable.py:301-311. -/
def keySet [DecidableEq K] {A : Type} (h : K → ℕ) (k : VKey K) (a : A) :
    List (VKey K × A) → List (VKey K × A)
  | [] => [(k, a)]
  | e :: d => if (decide (e.1.hash h = k.hash h) && e.1.eq k) = true then (e.1, a) :: d
              else e :: keySet h k a d

/-! ## Branches -/

/-- A `Branch` object (branch.py:36-47): the vectors are dictionaries, labels and probability may be
missing. -/
structure BrObj (K : Type) where
  down : List (K × ℕ)
  up : List (K × ℕ)
  downState : Option St
  upState : Option St
  p : Option ℚ

/-- `Branch.__init__` (branch.py:38-50); the `isinstance` assertions hold by typing. -/
def BrObj.new (b : BrObj K) : Except Err (BrObj K) :=
  if b.down.length = b.up.length then .ok b else .error .assertion

/-- `Branch.__eq__` (branch.py:62-69); with anything but a branch it returns `None`. -/
def BrObj.eq [DecidableEq K] (b : BrObj K) : Option (BrObj K) → Option Bool
  | some c => some (dictEq b.down c.down && dictEq b.up c.up && decide (b.downState = c.downState) &&
      decide (b.upState = c.upState) && decide (b.p = c.p))
  | none => none

/-- A value in the dictionary of a branch.  branch.py:252-253. -/
inductive BrVal (K : Type) where
  | vec (d : List (K × ℕ))
  | lab (s : Option St)
  | num (p : Option ℚ)

/-- `Branch.to_dict` (branch.py:252-253). -/
def BrObj.toDict (b : BrObj K) : List (String × BrVal K) :=
  [("down", .vec b.down), ("up", .vec b.up), ("down_state", .lab b.downState),
   ("up_state", .lab b.upState), ("p", .num b.p)]

/-- `Branch.from_dict` (branch.py:255-257).  A value of another kind fails the `isinstance`
assertions for `down` and `up`; labels and probabilities of other kinds are not modelled and are
given as the same error. -/
def BrObj.fromDict (d : List (String × BrVal K)) : Except Err (BrObj K) := do
  let down ← dictGet (fun k => d.lookup k) "down"
  let up ← dictGet (fun k => d.lookup k) "up"
  let ds ← dictGet (fun k => d.lookup k) "down_state"
  let us ← dictGet (fun k => d.lookup k) "up_state"
  let p ← dictGet (fun k => d.lookup k) "p"
  match down, up, ds, us, p with
  | .vec down, .vec up, .lab ds, .lab us, .num p =>
    BrObj.new { down, up, downState := ds, upState := us, p }
  | _, _, _, _, _ => .error .assertion

/-- `sum([probs[k][x] for x in range(v, up[k] + 1)])` (branch.py:31-32) on dictionaries: `up[k]`
first, then `probs[k][x]` for the states in the range. -/
def objFactor [DecidableEq K] (probs : List (K × List (ℕ × ℚ))) (up : List (K × ℕ)) (kv : K × ℕ) :
    Except Err ℚ := do
  let u ← dictGet (fun k => up.lookup k) kv.1
  let qs ← (List.range' kv.2 (u + 1 - kv.2)).mapM fun x => do
    let d ← dictGet (fun k => probs.lookup k) kv.1
    dictGet (fun i => d.lookup i) x
  return qs.sum

/-- `Branch.approx_prob` (branch.py:71-72) with `approx_prob_by_comps` (branch.py:26-33). -/
def BrObj.approxProb [DecidableEq K] (b : BrObj K) (probs : List (K × List (ℕ × ℚ))) :
    Except Err (BrObj K) := do
  let fs ← b.down.mapM (objFactor probs b.up)
  return { b with p := some fs.prod }

end BNS
