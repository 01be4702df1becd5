/-!
# Outcomes of C++ code

Undefined behaviour, aborts (`exit`, `MMSP::Abort`, a failing `assert`, an uncaught exception) and hangs are
explicit results of the model.
-/

namespace MMSP

/-- Result of running a piece of C++ code. -/
inductive Outcome (α : Type u) where
  /-- normal return -/
  | ok (a : α)
  /-- undefined behaviour was executed (out-of-bounds access, use after free, read of uninitialised memory ...) -/
  | ub
  /-- the process ended with the given code -/
  | abort (code : Int)
  deriving DecidableEq, Repr

namespace Outcome

def bind (o : Outcome α) (f : α → Outcome β) : Outcome β :=
  match o with
  | ok a => f a
  | ub => ub
  | abort c => abort c

@[simp] theorem ok_bind (a : α) (f : α → Outcome β) : (ok a).bind f = f a := rfl
@[simp] theorem ub_bind (f : α → Outcome β) : (ub : Outcome α).bind f = ub := rfl
@[simp] theorem abort_bind (c : Int) (f : α → Outcome β) : (abort c : Outcome α).bind f = abort c := rfl

instance : Monad Outcome where
  pure := ok
  bind := bind

@[simp] theorem pure_eq (a : α) : (pure a : Outcome α) = ok a := rfl
@[simp] theorem bind_eq (o : Outcome α) (f : α → Outcome β) : (o >>= f) = o.bind f := rfl
@[simp] theorem map_eq (o : Outcome α) (f : α → β) : (f <$> o) = o.bind (fun a => ok (f a)) := rfl

instance : LawfulMonad Outcome := LawfulMonad.mk'
  (id_map := by intro α x; cases x <;> rfl)
  (pure_bind := by intros; rfl)
  (bind_assoc := by intro α β γ x f g; cases x <;> rfl)

/-- The run returned normally. -/
def isOk : Outcome α → Bool
  | ok _ => true
  | _ => false

end Outcome

end MMSP
