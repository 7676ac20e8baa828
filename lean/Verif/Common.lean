/-!
Shared outcome type: a C++ call either returns, throws a documented exception,
or has undefined behaviour (null dereference, out-of-range element access, ...).
Undefined behaviour is a distinct outcome so that no theorem is true merely
because a partial C++ operation was made total.
-/
namespace Mdds

/-- Exception classes thrown by the modelled code
(`include/mdds/global.hpp` 53-97 and the standard `std::out_of_range`). -/
inductive Err where
  | outOfRange        -- std::out_of_range
  | invalidArg        -- mdds::invalid_arg_error
  | general           -- mdds::general_error
  | size              -- mdds::size_error
  | type              -- mdds::type_error
  | integrity         -- mdds::integrity_error
  | dataNotFound      -- point_quad_tree::data_not_found
  | keyNotFound       -- trie_map key_not_found
  | sharedBlock       -- mtv::shared_block_error
  | elementBlock      -- mtv::element_block_error
  deriving DecidableEq, Repr

/-- Result of a modelled C++ call. -/
inductive Outcome (α : Type u) where
  | ok (a : α)
  | err (e : Err)
  | ub
  deriving DecidableEq, Repr

namespace Outcome

def bind {α : Type u} {β : Type v} (x : Outcome α) (f : α → Outcome β) : Outcome β :=
  match x with
  | .ok a => f a
  | .err e => .err e
  | .ub => .ub

def map {α : Type u} {β : Type v} (f : α → β) (x : Outcome α) : Outcome β :=
  match x with
  | .ok a => .ok (f a)
  | .err e => .err e
  | .ub => .ub

instance : Monad Outcome where
  pure := .ok
  bind := Outcome.bind

@[simp] theorem bind_ok {α β : Type u} (a : α) (f : α → Outcome β) :
    (Outcome.ok a >>= f) = f a := rfl
@[simp] theorem bind_err {α β : Type u} (e : Err) (f : α → Outcome β) :
    ((Outcome.err e : Outcome α) >>= f) = .err e := rfl
@[simp] theorem bind_ub {α β : Type u} (f : α → Outcome β) :
    ((Outcome.ub : Outcome α) >>= f) = .ub := rfl
@[simp] theorem pure_eq {α : Type u} (a : α) : (pure a : Outcome α) = .ok a := rfl

/-- Element access without bounds check (`vector::operator[]`, pointer
dereference): out of range is undefined behaviour. -/
def ofOption {α : Type u} : Option α → Outcome α
  | some a => .ok a
  | none => .ub

@[simp] theorem ofOption_some {α : Type u} (a : α) : ofOption (some a) = .ok a := rfl
@[simp] theorem ofOption_none {α : Type u} : ofOption (none : Option α) = .ub := rfl

end Outcome
end Mdds
