import Verif.Model.PowerHouse
import Verif.Spec.Dist

/-!
# Specification vocabulary: power cuts of houses

Structures are repaired one a day, in the order of priority.  A house has power again as soon as one
of its links works, and a link works as soon as all its structures do.
-/

namespace BNS

/-- The day on which `s` works again when the structures `down` are damaged. -/
def repairDay (rep : List Name) (down : Name → Bool) (s : Name) : ℕ :=
  if down s then (rep.takeWhile (· ≠ s)).countP down + 1 else 0

/-- The day on which the last structure of a link works. -/
def linkDays (rep : List Name) (down : Name → Bool) (link : List Name) : ℕ :=
  (link.map (repairDay rep down)).foldr max 0

/-- The day on which the first link of a house works. -/
def cutDays (rep : List Name) (links : List (List Name)) (down : Name → Bool) : ℕ :=
  ((links.map (linkDays rep down)).min?).getD 0

/-- The probability that the damaged structures meet `E`: hazards with their probabilities, and
structures that fail independently given the hazard; `y s = 0` means that `s` fails. -/
def damageProb (haz : List (Name × ℚ)) (pfs : List (Name × List ℚ)) (E : (Name → Bool) → Prop)
    [DecidablePred E] : ℚ :=
  ∑ j ∈ Finset.range haz.length, ((haz.map Prod.snd).getD j 0) *
    sumOver (pfs.map fun sp => (sp.1, 2))
      (fun y => (pfs.map fun sp => if y sp.1 = 0 then sp.2.getD j 0 else 1 - sp.2.getD j 0).prod *
        if E (fun s => decide (y s = 0)) then 1 else 0) (fun _ => 0)

/-- The names made for a house: itself, and its links when there are several (or none). -/
def houseNames (hs : Name × List (List Name)) : List Name :=
  match hs.2 with
  | [_] => [hs.1]
  | sets => (List.range sets.length).map (linkName hs.1) ++ [hs.1]

/-- Input of the demo: one to six hazards, a failure probability of every structure for every
hazard, at most five structures to repair, houses with at least one link, links of distinct
structures, and no two variables with the same name. -/
structure PowerOK (haz : List (Name × ℚ)) (pfs : List (Name × List ℚ)) (rep : List Name)
    (lins : List (Name × List (List Name))) : Prop where
  hazards : haz ≠ [] ∧ haz.length ≤ 6
  probs : ∀ sp ∈ pfs, sp.2.length = haz.length
  repairs : rep.length ≤ 5 ∧ ∀ s ∈ rep, s ∈ pfs.map Prod.fst
  links : ∀ hs ∈ lins, hs.2 ≠ [] ∧ ∀ set ∈ hs.2, set ≠ [] ∧ set.Nodup ∧ ∀ s ∈ set, s ∈ rep
  names : (hazName :: (pfs.map (fun sp => xName sp.1) ++ rep.map nName ++ rep.map cName ++
    lins.flatMap houseNames)).Nodup

end BNS
