/-!
# Shared outcome type

C++ effects are explicit: a call can return, throw an exception, abort (failed `condAssert` in a
debug build, `include/asserting.h:34-43`), run into undefined behaviour, or loop forever.
-/

namespace SMT

/-- Outcome of a modelled C++ call. -/
inductive Res (α : Type) where
  /-- normal return -/
  | ok (a : α)
  /-- a C++ exception leaves the call (`std::out_of_range`, `std::domain_error`, ...) -/
  | throw
  /-- `condAssert` fails (`std::abort`) -/
  | abort
  /-- undefined behaviour -/
  | ub
  /-- the call never returns -/
  | diverge
  deriving DecidableEq, Repr

namespace Res

/-- sequencing -/
def bind {α β : Type} (x : Res α) (f : α → Res β) : Res β :=
  match x with
  | ok a => f a
  | throw => throw
  | abort => abort
  | ub => ub
  | diverge => diverge

instance : Monad Res where
  pure := Res.ok
  bind := Res.bind

@[simp] theorem ok_bind {α β : Type} (a : α) (f : α → Res β) : (Res.ok a >>= f) = f a := rfl
@[simp] theorem throw_bind {α β : Type} (f : α → Res β) : ((Res.throw : Res α) >>= f) = Res.throw := rfl
@[simp] theorem abort_bind {α β : Type} (f : α → Res β) : ((Res.abort : Res α) >>= f) = Res.abort := rfl
@[simp] theorem ub_bind {α β : Type} (f : α → Res β) : ((Res.ub : Res α) >>= f) = Res.ub := rfl
@[simp] theorem diverge_bind {α β : Type} (f : α → Res β) :
    ((Res.diverge : Res α) >>= f) = Res.diverge := rfl
@[simp] theorem pure_eq {α : Type} (a : α) : (pure a : Res α) = Res.ok a := rfl

/-- `condAssert(cond, msg)` (`include/asserting.h:34-43`). -/
def assert (c : Bool) : Res Unit := if c then ok () else abort

@[simp] theorem assert_true : assert true = ok () := rfl
@[simp] theorem assert_false : assert false = abort := rfl

end Res

end SMT
