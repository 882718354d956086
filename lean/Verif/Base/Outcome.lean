/-!
# Outcomes of C++ code

A call in the modelled code returns, throws, or has undefined behaviour. `Out` is that
three-way outcome; `M σ` adds a mutable state which survives a throw, as in C++.
-/

namespace DW

/-- Why a C++ execution is undefined. -/
inductive Ub
  /-- index or pointer outside its object -/
  | oob
  /-- null pointer used -/
  | null
  /-- access to released memory -/
  | freed
  /-- ranges of a copy overlap partially -/
  | overlap
  /-- signed integer overflow -/
  | overflow
  /-- integer division by zero -/
  | divZero
  /-- read of an uninitialised object -/
  | uninit
  deriving DecidableEq, Repr

/-- Which kind of exception leaves a call. `dw` models `DeepWorks_Assert` / `DeepWorks_Throw`
(include/deepworks/utils/assert.hpp:40-44), `outOfRange` the `std::out_of_range` of `.at()`,
`alloc` a `std::bad_alloc` or `std::length_error` of a growing container, `std` another exception
of the standard library (`std::invalid_argument`, `std::filesystem::filesystem_error`). -/
inductive Exn
  | dw
  | outOfRange
  | alloc
  | std
  deriving DecidableEq, Repr

/-- Outcome of a call. -/
inductive Out (α : Type _)
  | ok (a : α)
  | throw (e : Exn)
  | ub (u : Ub)
  deriving Repr, DecidableEq

namespace Out

@[simp] def bind {α β} : Out α → (α → Out β) → Out β
  | ok a, f => f a
  | throw e, _ => throw e
  | ub u, _ => ub u

instance : Monad Out where
  pure := ok
  bind := bind

@[simp] theorem pure_def {α} (a : α) : (pure a : Out α) = ok a := rfl
@[simp] theorem bind_ok {α β} (a : α) (f : α → Out β) : (ok a >>= f) = f a := rfl
@[simp] theorem bind_throw {α β} (e : Exn) (f : α → Out β) : (throw e >>= f) = throw e := rfl
@[simp] theorem bind_ub {α β} (u : Ub) (f : α → Out β) : (ub u >>= f) = ub u := rfl

theorem bind_eq_ok {α β} {x : Out α} {f : α → Out β} {b : β} :
    (x >>= f) = ok b ↔ ∃ a, x = ok a ∧ f a = ok b := by
  cases x <;> simp

/-- `DeepWorks_Assert(c)` (include/deepworks/utils/assert.hpp:43-44). -/
def check (c : Bool) : Out Unit := if c then ok () else throw .dw

@[simp] theorem check_true : check true = ok () := rfl
@[simp] theorem check_false : check false = throw .dw := rfl
theorem check_eq_ok {c : Bool} : check c = ok () ↔ c = true := by cases c <;> simp

/-- `v[i]` on a `std::vector` (no bounds check): out of range is undefined. -/
def idx {α} (v : List α) (i : Nat) : Out α :=
  match v[i]? with
  | some a => ok a
  | none => ub .oob

/-- `.at(i)` on a map/vector: out of range throws. -/
def at? {α} : Option α → Out α
  | some a => ok a
  | none => throw .outOfRange

@[simp] theorem at?_some {α} (a : α) : at? (some a) = ok a := rfl
@[simp] theorem at?_none {α} : at? (none : Option α) = throw .outOfRange := rfl

theorem idx_of_lt {α} {v : List α} {i : Nat} (h : i < v.length) : idx v i = ok v[i] := by
  simp [idx, h]

theorem idx_of_ge {α} {v : List α} {i : Nat} (h : v.length ≤ i) : idx v i = ub .oob := by
  simp [idx, h]

instance : LawfulMonad Out := LawfulMonad.mk' _
  (id_map := fun x => by cases x <;> rfl)
  (pure_bind := fun _ _ => rfl)
  (bind_assoc := fun x _ _ => by cases x <;> rfl)

@[simp] theorem mapM_nil {α β} (f : α → Out β) : [].mapM f = ok [] := rfl

theorem mapM_cons_ok {α β} {f : α → Out β} {a : α} {l : List α} {b : β} {r : List β}
    (h : f a = ok b) (h' : l.mapM f = ok r) : (a :: l).mapM f = ok (b :: r) := by
  simp [List.mapM_cons, h, h']

theorem mapM_eq_ok_of_forall {α β} {f : α → Out β} {g : α → β} {l : List α}
    (h : ∀ a ∈ l, f a = ok (g a)) : l.mapM f = ok (l.map g) := by
  induction l with
  | nil => rfl
  | cons a l ih =>
    exact mapM_cons_ok (h a (by simp)) (ih fun x hx => h x (by simp [hx]))

theorem mapM_ok_length {α β} {f : α → Out β} {l : List α} {r : List β} (h : l.mapM f = ok r) :
    r.length = l.length := by
  induction l generalizing r with
  | nil => simp at h; simp [← h]
  | cons a l ih =>
    rw [List.mapM_cons, bind_eq_ok] at h
    obtain ⟨b, -, h⟩ := h
    rw [bind_eq_ok] at h
    obtain ⟨r', h', h⟩ := h
    simp only [pure_def, ok.injEq] at h
    rw [← h, List.length_cons, List.length_cons, ih h']

theorem mapM_ok_getElem {α β} {f : α → Out β} {l : List α} {r : List β} (h : l.mapM f = ok r)
    (i : Nat) (hi : i < l.length) (hi' : i < r.length) : f l[i] = ok r[i] := by
  induction l generalizing r i with
  | nil => simp at hi
  | cons a l ih =>
    rw [List.mapM_cons, bind_eq_ok] at h
    obtain ⟨b, hb, h⟩ := h
    rw [bind_eq_ok] at h
    obtain ⟨r', h', h⟩ := h
    simp only [pure_def, ok.injEq] at h
    subst h
    cases i with
    | zero => simpa using hb
    | succ i => simpa using ih h' i (by simpa using hi) (by simpa using hi')

def isUb {α} : Out α → Bool
  | ub _ => true
  | _ => false

def isThrow {α} : Out α → Bool
  | throw _ => true
  | _ => false

def isOk {α} : Out α → Bool
  | ok _ => true
  | _ => false

end Out

/-- State-passing computations. The state reached before a throw is kept. -/
def M (σ α : Type _) := σ → Out α × σ

namespace M

variable {σ α β : Type _}

def pure (a : α) : M σ α := fun s => (.ok a, s)

def bind (x : M σ α) (f : α → M σ β) : M σ β := fun s =>
  match x s with
  | (.ok a, s') => f a s'
  | (.throw e, s') => (.throw e, s')
  | (.ub u, s') => (.ub u, s')

instance : Monad (M σ) where
  pure := pure
  bind := bind

/-- Run a state-free call. -/
def lift (x : Out α) : M σ α := fun s => (x, s)

def get : M σ σ := fun s => (.ok s, s)
def set (s : σ) : M σ Unit := fun _ => (.ok (), s)
def modify (f : σ → σ) : M σ Unit := fun s => (.ok (), f s)

/-- `DeepWorks_Assert(c)`. -/
def check (c : Bool) : M σ Unit := lift (Out.check c)

theorem bind_apply (x : M σ α) (f : α → M σ β) (s : σ) :
    (x >>= f) s = match x s with
      | (.ok a, s') => f a s'
      | (.throw e, s') => (.throw e, s')
      | (.ub u, s') => (.ub u, s') := rfl

@[simp] theorem pure_apply (a : α) (s : σ) : (Pure.pure a : M σ α) s = (.ok a, s) := rfl
@[simp] theorem lift_apply (x : Out α) (s : σ) : (lift x : M σ α) s = (x, s) := rfl
@[simp] theorem get_apply (s : σ) : (get : M σ σ) s = (.ok s, s) := rfl
@[simp] theorem set_apply (s s' : σ) : (set s : M σ Unit) s' = (.ok (), s) := rfl
@[simp] theorem modify_apply (f : σ → σ) (s : σ) : (modify f : M σ Unit) s = (.ok (), f s) := rfl
@[simp] theorem check_true_apply (s : σ) : (check true : M σ Unit) s = (.ok (), s) := rfl
@[simp] theorem check_false_apply (s : σ) : (check false : M σ Unit) s = (.throw .dw, s) := rfl

theorem bind_ok {x : M σ α} {f : α → M σ β} {s s' : σ} {a : α} (h : x s = (.ok a, s')) :
    (x >>= f) s = f a s' := by rw [bind_apply, h]

theorem bind_throw {x : M σ α} {f : α → M σ β} {s s' : σ} {e : Exn} (h : x s = (.throw e, s')) :
    (x >>= f) s = (.throw e, s') := by rw [bind_apply, h]

theorem bind_ub {x : M σ α} {f : α → M σ β} {s s' : σ} {u : Ub} (h : x s = (.ub u, s')) :
    (x >>= f) s = (.ub u, s') := by rw [bind_apply, h]

theorem bind_eq_ok {x : M σ α} {f : α → M σ β} {s t : σ} {b : β} :
    (x >>= f) s = (.ok b, t) ↔ ∃ a s', x s = (.ok a, s') ∧ f a s' = (.ok b, t) := by
  rw [bind_apply]
  rcases x s with ⟨o, s'⟩
  cases o with
  | ok a =>
    constructor
    · intro h; exact ⟨a, s', rfl, h⟩
    · rintro ⟨_, _, h, h'⟩
      cases h; exact h'
  | throw e => simp
  | ub u => simp

end M

end DW
