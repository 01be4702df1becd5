import Verif.OstwaldProps
import Mathlib.Tactic.NormNum
import Mathlib.Tactic.LinearCombination
/-!
# The parameters of the Ostwald ripening example

What the numbers of ostwald.cpp 68-82 (`example'` in `Verif.Ostwald`) mean: where the double well has its stationary
points and what an order parameter settles at inside a particle.
-/

namespace MMSP.Ostwald

variable {α : Type} [Field α] [CharZero α]

/-- **C68.** With the parameters of the example the double well part of the driving force of the concentration (the potential
without order parameters, without gradient and without the two cubic wells) vanishes at `Calpha`, `Cmatrix` and `Cbeta` and
nowhere else. -/
theorem wells (x : α) :
    potential { (example' : Params α) with Dalpha := 0, Dbeta := 0 } 0 x 0 = 0 ↔
      x = (example' : Params α).Calpha ∨ x = (example' : Params α).Cmatrix ∨ x = (example' : Params α).Cbeta := by
  have key : potential { (example' : Params α) with Dalpha := 0, Dbeta := 0 } 0 x 0 =
      800 / 81 * ((x - 5 / 100) * (x - 1 / 2 * (5 / 100 + 95 / 100)) * (x - 95 / 100)) := by
    simp only [potential, example']
    norm_num
    ring
  rw [key]
  simp only [example', mul_eq_zero, sub_eq_zero, or_assoc]
  norm_num

/-- **C68.** Alone in a uniform region of concentration `Cbeta`, an order parameter with value `v` is at rest exactly if
`v³ = 2`; in particular the value 1 is not at rest. In a region of concentration `Calpha` it is at rest exactly at 0. -/
theorem at_rest (v : α) :
    (force (example' : Params α) (v ^ 2) (example' : Params α).Cbeta v 0 = 0 ↔ v ^ 3 = 2) ∧
    (force (example' : Params α) (v ^ 2) (example' : Params α).Calpha v 0 = 0 ↔ v = 0) := by
  constructor
  · have : force (example' : Params α) (v ^ 2) (example' : Params α).Cbeta v 0 = v ^ 3 - 2 := by
      simp only [force, example']
      norm_num
      ring
    rw [this, sub_eq_zero]
  · have : force (example' : Params α) (v ^ 2) (example' : Params α).Calpha v 0 = v ^ 3 := by
      simp only [force, example']
      norm_num
    rw [this]
    exact pow_eq_zero_iff (by norm_num)

/-- Value 1 at concentration `Cbeta` is driven with force -1. -/
example : force (example' : Params ℚ) (1 ^ 2) (example' : Params ℚ).Cbeta 1 0 = -1 := by
  decide +kernel

/-- A second order parameter of value 1 in the same place pushes the first one away: the force on `v` is `v³ + 3 v - 2`. -/
theorem second_order_parameter (v : α) :
    force (example' : Params α) (v ^ 2 + 1 ^ 2) (example' : Params α).Cbeta v 0 = v ^ 3 + 3 * v - 2 := by
  simp only [force, example']
  norm_num
  ring

end MMSP.Ostwald
