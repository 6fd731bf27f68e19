/-!
# Outcomes of C++ calls

The result of running a piece of modelled C++ code.  Undefined behaviour is an outcome of its own, different from
both a normal return and a thrown exception, so that a theorem of the form `f x = .ok v` says at the same time that
no undefined behaviour happens and that nothing is thrown.
-/

namespace Verif

/-- The exceptions that the modelled code throws. -/
inductive Exn where
  | outOfRange      -- std::out_of_range
  | invalidArg      -- std::invalid_argument
  | runtime         -- std::runtime_error
  | overflow        -- awl::DecimalException and friends: a value does not fit
  | format          -- malformed text
  | endOfFile       -- awl::io::EndOfFileException
  | corruption      -- awl::io::CorruptionException
  | typeMismatch    -- awl::io::TypeMismatchException
  | fieldNotFound   -- awl::io::FieldNotFoundException
  | structNotFound  -- awl::io::StructureNotFoundException
  | io              -- awl::io::IoException / IoError
  | logic           -- std::logic_error
  | general         -- awl::GeneralException
  | test            -- awl::testing::TestException
  | user (n : Nat)  -- an exception thrown by user code
deriving DecidableEq, Repr

/-- Outcome of a C++ call. -/
inductive Res (α : Type) where
  | ok (a : α)
  | throw (e : Exn)
  | ub
deriving DecidableEq, Repr

namespace Res

@[inline] protected def bind {α : Type} {β : Type} (r : Res α) (f : α → Res β) : Res β :=
  match r with
  | ok a => f a
  | throw e => throw e
  | ub => ub

instance : Monad Res where
  pure := Res.ok
  bind := Res.bind

@[simp] theorem pure_eq {α : Type} (a : α) : (pure a : Res α) = Res.ok a := rfl
@[simp] theorem ok_bind {α β : Type} (a : α) (f : α → Res β) : (Res.ok a >>= f) = f a := rfl
@[simp] theorem throw_bind {α β : Type} (e : Exn) (f : α → Res β) : ((Res.throw e : Res α) >>= f) = Res.throw e := rfl
@[simp] theorem ub_bind {α β : Type} (f : α → Res β) : ((Res.ub : Res α) >>= f) = Res.ub := rfl
@[simp] theorem map_eq {α β : Type} (f : α → β) (r : Res α) :
    f <$> r = (r >>= fun a => Res.ok (f a)) := rfl

theorem bind_eq_ok {α β : Type} {r : Res α} {f : α → Res β} {b : β} :
    (r >>= f) = .ok b ↔ ∃ a, r = .ok a ∧ f a = .ok b := by
  cases r <;> simp

instance : LawfulMonad Res where
  map_const := rfl
  id_map r := by cases r <;> rfl
  seqLeft_eq x y := by cases x <;> cases y <;> rfl
  seqRight_eq x y := by cases x <;> cases y <;> rfl
  pure_seq f x := by cases x <;> rfl
  bind_pure_comp f x := rfl
  bind_map f x := by cases f <;> rfl
  pure_bind x f := rfl
  bind_assoc x f g := by cases x <;> rfl

/-- The call returned normally. -/
def isOk {α : Type} : Res α → Bool
  | ok _ => true
  | _ => false

/-- The call ran into undefined behaviour. -/
def isUb {α : Type} : Res α → Bool
  | ub => true
  | _ => false

end Res

end Verif
