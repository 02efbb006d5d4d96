import Verif.Model.Paths

/-!
# Model of `Config` (config.py:42-85) and `read_scenarios_from_json` (config.py:134-140)

Files and directories are named by what the configuration file says, relative to its own directory
(`HOME`).  That two texts can name the same file (`a.json` and `./a.json`) is not modelled: `K` is the
type of the names after such spellings have been resolved.  Texts in the configuration file that
name no file are also of type `K`.
-/

namespace BNS

set_option linter.unusedSectionVars false

section
variable {K : Type} [DecidableEq K]

/-- A key of the configuration file (config.py:45, 65): the five that the constructor knows, and
others. -/
inductive CfgKey (K : Type) where
  | modelName | maxBranches | configurationId | outputPath | scenarioName
  | other (k : K)
  deriving DecidableEq

/-- A value in the configuration file: a non-empty text, the empty text, a number or `null`.  Lists
and dictionaries are not modelled.  config.py:47-85. -/
inductive CfgVal (K : Type) where
  | text (p : K) | empty | num (n : ℚ) | null
  deriving DecidableEq

/-- A scenario file after `json.load`: `damage_states` if there is such a key, and `scenarios`. -/
structure ScenJson (K : Type) where
  damage : Option (List ℚ)
  scenarios : List (K × List (K × List ℚ))

/-- A file: a model file, a scenario file or another dictionary.  config.py:68-69, 88-140. -/
inductive FileC (K : Type) where
  | model (m : NetJson K) | scen (s : ScenJson K) | dict

/-- The files and the directories under the directory of the configuration file.  config.py:58-82. -/
structure Disk (K : Type) where
  files : K → Option (FileC K)
  dirs : K → Bool

/-- `Config.REQ` (config.py:45). -/
def cfgReq : List (CfgKey K) := [.modelName, .maxBranches, .configurationId, .outputPath]

/-- Attributes of a `Config` object.  `file_model`, `file_scenarios` are left out; the attributes
`scenarios` and `no_ds` do not exist (`none`) without a scenario file.  config.py:47-85. -/
structure Cfg (K : Type) where
  infra : Infra K
  scenarios : Option (ScenJson K)
  noDs : Option ℕ
  key : CfgVal K
  maxBranches : CfgVal K
  outputPath : Option K
  data : List (CfgKey K × CfgVal K)

/-- Truth value of an entry (config.py:65). -/
def CfgVal.truthy : CfgVal K → Bool
  | .text _ => true
  | .empty => false
  | .num n => n ≠ 0
  | .null => false

/-- `HOME.joinpath(value)` (config.py:59, 66, 78); the empty text gives `HOME` itself, here `none`. -/
def cfgPath : CfgVal K → Except Err (Option K)
  | .text p => .ok (some p)
  | .empty => .ok none
  | .num _ => .error .type
  | .null => .error .type

/-- `Path.exists()` (config.py:60, 67, 79). -/
def Disk.exists (disk : Disk K) : Option K → Bool
  | none => true
  | some p => (disk.files p).isSome || disk.dirs p

/-- `open(path)`; opening a directory is an `OSError`, which stands as `graph` here.
As in config.py:88-131. -/
def Disk.open (disk : Disk K) : Option K → Except Err (FileC K)
  | none => .error .graph
  | some p =>
    match disk.files p with
    | some f => .ok f
    | none => .error .graph

/-- `read_model_from_json(path)` (config.py:88-131): a file without `component_list` is a
`KeyError`. -/
def readModelFile (disk : Disk K) (p : Option K) : Except Err (Infra K) := do
  let f ← disk.open p
  match f with
  | .model m => readModel m
  | _ => .error .key

/-- `read_scenarios_from_json(path)` and `len(self.scenarios['damage_states'])`
(config.py:68-69, 134-140). -/
def readScenarioFile (disk : Disk K) (p : Option K) : Except Err (ScenJson K × ℕ) := do
  let f ← disk.open p
  match f with
  | .scen s =>
    match s.damage with
    | some ds => .ok (s, ds.length)
    | none => .error .key
  | _ => .error .key

/-- `data.pop(k)`.  As in config.py:64-72. -/
def cfgPop (data : List (CfgKey K × CfgVal K)) (k : CfgKey K) : List (CfgKey K × CfgVal K) :=
  data.filter fun e => e.1 ≠ k

/-- The part of the constructor about scenarios (config.py:64-72): the scenarios with `no_ds`, and
the entries that are left.  When the file does not exist the message of the assertion names an
undefined variable, so a `NameError` (here `unbound`) is raised. -/
def cfgScenarios (disk : Disk K) (data : List (CfgKey K × CfgVal K)) :
    Except Err (Option (ScenJson K × ℕ) × List (CfgKey K × CfgVal K)) := do
  let v ← itemsGet data .scenarioName
  if v.truthy then do
    let p ← cfgPath v
    if disk.exists p then do
      let s ← readScenarioFile disk p
      return (some s, cfgPop data .scenarioName)
    else .error .unbound
  else return (none, data)

/-- `self.output_path.mkdir(parents=True, exist_ok=True)` (config.py:79-81).  Parents are not
modelled. -/
def Disk.ensureDir (disk : Disk K) : Option K → Disk K
  | none => disk
  | some p => if disk.exists (some p) then disk
    else { disk with dirs := fun q => decide (q = p) || disk.dirs q }

/-- `Config(file_cfg)` (config.py:47-85), for the dictionary `data` in the file; the object and the
files afterwards. -/
def Cfg.new (disk : Disk K) (data : List (CfgKey K × CfgVal K)) : Except Err (Cfg K × Disk K) := do
  if cfgReq.all fun k => decide (k ∈ data.map Prod.fst) then do
    let m ← itemsGet data .modelName
    let p ← cfgPath m
    if disk.exists p then do
      let infra ← readModelFile disk p
      let sc ← cfgScenarios disk data
      let key ← itemsGet sc.2 .configurationId
      let mb ← itemsGet sc.2 .maxBranches
      let o ← itemsGet sc.2 .outputPath
      let out ← cfgPath o
      return ({ infra := infra, scenarios := sc.1.map Prod.fst, noDs := sc.1.map Prod.snd, key := key,
                maxBranches := mb, outputPath := out, data := cfgReq.foldl cfgPop sc.2 },
              disk.ensureDir out)
    else .error .assertion
  else .error .assertion

end

end BNS
