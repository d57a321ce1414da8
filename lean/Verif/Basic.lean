/-
Outcomes and bytes shared by every part of the model.
-/
namespace Pstack

/-- A byte (`char` / `unsigned char` / `uint8_t`). -/
abbrev Byte := BitVec 8

/-- Outcome of a modelled C++ function.
* `ok a`  : the function returned `a`;
* `exc`   : it threw a C++ exception (`pstack::Exception`, `std::logic_error`, ...);
* `ub`    : the C++ abstract machine gives no meaning to the execution
            (out-of-range shift, empty `stack.top()`, out-of-bounds access, division by zero);
* `abort` : an `assert` failed. -/
inductive Res (α : Type) where
  | ok (a : α)
  | exc
  | ub
  | abort
  deriving Repr, DecidableEq

namespace Res

@[simp] def bind {α β : Type} : Res α → (α → Res β) → Res β
  | ok a, f => f a
  | exc, _ => exc
  | ub, _ => ub
  | abort, _ => abort

instance : Monad Res where
  pure := Res.ok
  bind := Res.bind

@[simp] theorem pure_eq {α : Type} (a : α) : (pure a : Res α) = ok a := rfl
@[simp] theorem bind_ok {α β : Type} (a : α) (f : α → Res β) : (ok a >>= f) = f a := rfl
@[simp] theorem bind_exc {α β : Type} (f : α → Res β) : ((exc : Res α) >>= f) = exc := rfl
@[simp] theorem bind_ub {α β : Type} (f : α → Res β) : ((ub : Res α) >>= f) = ub := rfl
@[simp] theorem bind_abort {α β : Type} (f : α → Res β) : ((abort : Res α) >>= f) = abort := rfl

/-- The value, if the function returned one. -/
def toOption {α : Type} : Res α → Option α
  | ok a => some a
  | _ => none

theorem bind_eq_ok {α β : Type} {x : Res α} {f : α → Res β} {b : β} :
    (x >>= f) = ok b ↔ ∃ a, x = ok a ∧ f a = ok b := by
  cases x <;> simp

end Res

/-- 2^64: the modulus of `Elf::Off`, `Elf::Addr`, `size_t`, `uintmax_t`. -/
def W64 : Nat := 18446744073709551616

theorem W64_eq : W64 = 2 ^ 64 := by decide

end Pstack
