import Mathlib.Algebra.Field.Rat
import Verif.Model.ConnMain
import Verif.Model.CreateModel
import Verif.Model.Rbd

/-!
# Model of the commands that write the files of the routine and rbd demos

`setup` of `BNS_JT/demos/routine/batch.py` (14-37), `create_model` of `BNS_JT/demos/rbd/batch.py` (17-57),
and `main` of the rbd demo from the configuration file on.  `nd n` is the text `f'n{n}'`, `eg i` the text
`f'e{i}'`, `xb i` the text `f'x{i}'`.  Names are texts, so writing a file and reading it again leaves them as
they are.
-/

namespace BNS

set_option linter.unusedSectionVars false

section
variable {K : Type} [LinearOrder K]

/-- `setup()` of the routine demo (routine/batch.py:14-37): the files afterwards.  `od1` is the name `'od1'`,
`pm` the name `'./model.json'`. -/
def routineSetup (nd eg : ℕ → K) (od1 pm : K) (disk : Disk K) : Disk K :=
  disk.put pm (.model (loadNet id (createGraph
    [(eg 1, nd 1, nd 2), (eg 2, nd 1, nd 3), (eg 3, nd 2, nd 3), (eg 4, nd 2, nd 4), (eg 5, nd 3, nd 4)]
    [(nd 1, 0, 0), (nd 2, 1, 1), (nd 3, 1, -1), (nd 4, 2, 0)]
    [(od1, nd 1, nd 4)])))

/-- `probs` of the routine demo (routine/batch.py:91). -/
def routineProbs (eg : ℕ → K) : ConnProbs K :=
  [(eg 1, 0.01, 0.99), (eg 2, 0.02, 0.98), (eg 3, 0.03, 0.97), (eg 4, 0.04, 0.96), (eg 5, 0.05, 0.95)]

/-- `create_model()` of the rbd demo (rbd/batch.py:17-57): the files afterwards.  `src` and `snk` are the
names `'source'` and `'sink'`. -/
def rbdSetup (xb eg : ℕ → K) (src snk od1 pm : K) (disk : Disk K) : Disk K :=
  disk.put pm (.model (loadNet id (createGraph
    [(eg 1, src, xb 1), (eg 2, src, xb 2), (eg 3, src, xb 3), (eg 4, src, xb 4), (eg 5, xb 4, xb 5),
      (eg 6, xb 5, xb 6), (eg 7, xb 6, xb 7), (eg 8, xb 7, xb 8), (eg 9, xb 8, snk), (eg 10, xb 1, xb 7),
      (eg 11, xb 2, xb 7), (eg 12, xb 3, xb 7)]
    [(src, -2, 0), (xb 1, 0, 1 / 2), (xb 2, 0, 1 / 4), (xb 3, 0, 0), (xb 4, -1, -1 / 2), (xb 5, 0, -1 / 2),
      (xb 6, 1, -1 / 2), (xb 7, 2, 0), (xb 8, 3, 0), (snk, 4, 0)]
    [(od1, src, snk)])))

/-- `main()` of the rbd demo from the configuration file on (rbd/batch.py:81-137): what is printed, and the
files afterwards.  A limit that is not a number is a `TypeError`, raised
here before the error for a missing node.  The result of a comparison with a fractional limit is that with
the next whole number. -/
def rbdCommand (lib : PathLib K) (src snk sys x1 : K) (data : List (CfgKey K × CfgVal K)) (disk : Disk K) :
    Except Err (Option ℚ × Disk K) := do
  let r ← Cfg.new disk data
  let maxB ← cfgNum r.1.maxBranches
  let v ← rbdMain lib r.1.infra.G (r.1.infra.comps.map Prod.fst) src snk sys x1 maxB.ceil.toNat
  return (v, r.2)

end

end BNS
