import Verif.Buffer
/-!
# The progress bar

Model of `print_progress`, `include/MMSP.utility.cpp` 138-179: what a loop `for (int step=0; step<steps; step++) print_progress(step, steps);` prints.

Simplifications: output is a list of events; the time of day is left out. The static variables only affect the printed numbers.
-/

namespace MMSP.Progress

/-- `opening` stands for number, date and `[`; `bullet` for one bullet; `closing` for `]` and the elapsed time. -/
inductive Event
  | opening | bullet | closing
deriving DecidableEq

/-- `include/MMSP.utility.cpp` 161-178. The product is computed in `int`. -/
def printProgress (step steps : Int) : Outcome (List Event) :=
  if step = 0 then .ok [.opening]
  else if step = steps - 1 then .ok [.bullet, .closing]
  else if ¬ 20 * step < 2 ^ 31 then .ub
  else if steps = 0 then .ub
  else if (20 * step).tmod steps = 0 then .ok [.bullet]
  else .ok []

/-- The loop of the examples' update functions, e.g. `examples/coarsening/grain_growth/anisotropic/sparsePF/graingrowth.cpp` 101-103. -/
def loop (steps : Nat) : Outcome (List Event) :=
  (List.range steps).foldlM (fun out (step : Nat) => (printProgress step steps).bind fun e => .ok (out ++ e)) []

/-- The elapsed time as printed: `include/MMSP.utility.cpp` 174. -/
def clock (t : Nat) : Nat × Nat × Nat := (t / 3600, (t % 3600) / 60, t % 60)

end MMSP.Progress
