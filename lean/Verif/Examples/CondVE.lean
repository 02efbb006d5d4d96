import Verif.Model.CondVE
import Verif.Spec.CondVE
import Verif.Examples.Cpm

/-! Networks for the examples of `cal_Msys_by_cond_VE`: a hazard 0, components 1 and 3, a system 4 and
a further variable 5. -/

namespace BNS.Ex

/-- The hazard and the network of the repository's test. -/
def hHaz : Cpm ℕ := { vars := [U 0], noChild := 1, C := [[0], [1]], p := [7/10, 3/10] }
def hX0 : Cpm ℕ :=
  { vars := [U 1, U 0], noChild := 1, C := [[0,0],[1,0],[0,1],[1,1]], p := [1/10,9/10,2/10,8/10] }
def hX1 : Cpm ℕ :=
  { vars := [U 3, U 0], noChild := 1, C := [[0,0],[1,0],[0,1],[1,1]], p := [3/10,7/10,4/10,6/10] }
def hSys : Cpm ℕ := { vars := [U 4, U 1, U 3], noChild := 1, C := [[0,0,0],[1,1,1]], p := [1,1] }
def hD : List (ℕ × Cpm ℕ) := [(0,hHaz),(1,hX0),(3,hX1),(4,hSys)]
def hV : List (ℕ × Variable ℕ) := [0,1,3,4,5].map fun k => (k, U k)

/-- A system with the hazard among its parents. -/
def hSys2 : Cpm ℕ :=
  { vars := [U 4, U 0, U 1], noChild := 1, C := [[0,0,0],[1,0,1],[0,1,0],[0,1,1]]
    p := [1,1,1,1] }
def hD2 : List (ℕ × Cpm ℕ) := [(0,hHaz),(1,hX0),(4,hSys2)]

/-- A component that depends on another component. -/
def hX0i : Cpm ℕ := { vars := [U 1], noChild := 1, C := [[0],[1]], p := [3/10,7/10] }
def hX1d : Cpm ℕ :=
  { vars := [U 3, U 1], noChild := 1, C := [[0,0],[1,0],[0,1],[1,1]], p := [3/10,7/10,4/10,6/10] }
def hSys4 : Cpm ℕ :=
  { vars := [U 4, U 1, U 3], noChild := 1, C := [[0,0,0],[0,0,1],[0,1,0],[1,1,1]]
    p := [1,1,1,1] }
def hD4 : List (ℕ × Cpm ℕ) := [(0,hHaz),(1,hX0i),(3,hX1d),(4,hSys4)]

/-- Components that depend on the hazard through the variable 5. -/
def h5 : Cpm ℕ :=
  { vars := [U 5, U 0], noChild := 1, C := [[0,0],[1,0],[0,1],[1,1]], p := [1/10,9/10,2/10,8/10] }
def hX05 : Cpm ℕ :=
  { vars := [U 1, U 5], noChild := 1, C := [[0,0],[1,0],[0,1],[1,1]], p := [1/10,9/10,2/10,8/10] }
def hX15 : Cpm ℕ :=
  { vars := [U 3, U 5], noChild := 1, C := [[0,0],[1,0],[0,1],[1,1]], p := [3/10,7/10,4/10,6/10] }
def hD5 : List (ℕ × Cpm ℕ) := [(0,hHaz),(5,h5),(1,hX05),(3,hX15),(4,hSys)]

/-- A component with a certain state under one hazard: the first under the second hazard, the second
under the first. -/
def hX0s : Cpm ℕ :=
  { vars := [U 1, U 0], noChild := 1, C := [[0,0],[1,0],[1,1]], p := [1/10,9/10,1] }
def hX0t : Cpm ℕ :=
  { vars := [U 1, U 0], noChild := 1, C := [[1,0],[0,1],[1,1]], p := [1,2/10,8/10] }

/-- Two hazards, both parents of the components. -/
def h0a : Cpm ℕ := { vars := [U 5], noChild := 1, C := [[0], [1]], p := [7/10, 3/10] }
def hX05b : Cpm ℕ :=
  { vars := [U 1, U 0, U 5], noChild := 1, C := [[0,0,2],[1,0,2],[0,1,2],[1,1,2]]
    p := [1/10,9/10,2/10,8/10] }
def hX15b : Cpm ℕ :=
  { vars := [U 3, U 0, U 5], noChild := 1, C := [[0,0,2],[1,0,2],[0,1,2],[1,1,2]]
    p := [1/10,9/10,2/10,8/10] }
def hD6 : List (ℕ × Cpm ℕ) := [(0,hHaz),(5,h0a),(1,hX05b),(3,hX15b),(4,hSys)]

end BNS.Ex
