/-
Machine words, build modes, faults and iterators: the vocabulary the model is written in.
-/
namespace LG

/-- Cargo build mode. `debug` has overflow checks and `debug_assert!`; `release` wraps and skips them. -/
inductive Mode where
  | debug
  | release
deriving DecidableEq, Repr

/-- Ways a Rust call can fail to return a value. `ub` is undefined behaviour (out-of-bounds unchecked access,
read of an uninitialised slot, `unreachable_unchecked`); `diverge` is an endless loop. -/
inductive Fault where
  | panic
  | ub
  | diverge
deriving DecidableEq, Repr

/-- Result of a call that may fault. -/
abbrev Res (α : Type) := Except Fault α

/-- A target: `isize = [-half, half)`, `usize = [0, 2*half)`, at least 16 bits, and a build mode. -/
structure Machine where
  half : Nat
  mode : Mode
  half_ge : 32768 ≤ half

/-- `unreachable_debug_checked`. src/lib.rs:33-40 (`unreachable!()` in debug, `unreachable_unchecked` in release). -/
def unreachableDebugChecked {α : Type} (m : Machine) : Res α :=
  match m.mode with
  | .debug => .error .panic
  | .release => .error .ub

/-- Value of an overflowing arithmetic operation: panic in debug, the wrapped value in release (rustc semantics). -/
def overflow {α : Type} (m : Machine) (wrapped : α) : Res α :=
  match m.mode with
  | .debug => .error .panic
  | .release => .ok wrapped

/-- `a + b` on `usize`. -/
def uadd (m : Machine) (a b : Nat) : Res Nat :=
  if a + b < 2 * m.half then .ok (a + b) else overflow m (a + b - 2 * m.half)

/-- `a - b` on `usize`. -/
def usub (m : Machine) (a b : Nat) : Res Nat :=
  if b ≤ a then .ok (a - b) else overflow m (a + 2 * m.half - b)

/-- `a * b` on `usize`. -/
def umul (m : Machine) (a b : Nat) : Res Nat :=
  if a * b < 2 * m.half then .ok (a * b) else overflow m (a * b % (2 * m.half))

/-- Wrap an integer that is at most one turn outside the `isize` range back into it. -/
def wrapI (m : Machine) (x : Int) : Int :=
  if x < -(m.half : Int) then x + 2 * m.half else if (m.half : Int) ≤ x then x - 2 * m.half else x

/-- The `isize` range. -/
def InI (m : Machine) (x : Int) : Prop := -(m.half : Int) ≤ x ∧ x < m.half

instance (m : Machine) (x : Int) : Decidable (InI m x) := by unfold InI; infer_instance

/-- `a + b` on `isize`. -/
def iadd (m : Machine) (a b : Int) : Res Int :=
  if InI m (a + b) then .ok (a + b) else overflow m (wrapI m (a + b))

/-- `a - b` on `isize`. -/
def isub (m : Machine) (a b : Int) : Res Int :=
  if InI m (a - b) then .ok (a - b) else overflow m (wrapI m (a - b))

/-- `x as usize` for `x : isize` (two's complement). -/
def asUsize (m : Machine) (x : Int) : Nat :=
  if x < 0 then (x + 2 * m.half).toNat else x.toNat

/-- `n as isize` for `n : usize` (two's complement). -/
def asIsize (m : Machine) (n : Nat) : Int :=
  if n < m.half then (n : Int) else (n : Int) - 2 * m.half

/-- `Yields next s l`: calling `next` repeatedly from iterator state `s` returns the items of `l` in order, then `None`,
with no fault on the way. This is the meaning of "the iterator yields exactly `l`". -/
inductive Yields {σ α : Type} (next : σ → Res (Option α × σ)) : σ → List α → Prop where
  | done {s s' : σ} : next s = .ok (none, s') → Yields next s []
  | step {s s' : σ} {a : α} {l : List α} : next s = .ok (some a, s') → Yields next s' l → Yields next s (a :: l)

/-- `Reaches next s s'`: state `s'` is reached from `s` by some number of fault-free `next` calls (whatever they return). -/
inductive Reaches {σ α : Type} (next : σ → Res (Option α × σ)) : σ → σ → Prop where
  | refl (s : σ) : Reaches next s s
  | step {s s' s'' : σ} {o : Option α} : Reaches next s s' → next s' = .ok (o, s'') → Reaches next s s''

/-- What a run of an iterator yields is determined by the start state. -/
theorem Yields.unique {σ α : Type} {next : σ → Res (Option α × σ)} {s : σ} {l l' : List α}
    (h : Yields next s l) (h' : Yields next s l') : l = l' := by
  induction h generalizing l' with
  | done h1 =>
    cases h' with
    | done => rfl
    | step h2 => rw [h1] at h2; simp at h2
  | step h1 _ ih =>
    cases h' with
    | done h2 => rw [h1] at h2; simp at h2
    | step h2 h3 =>
      rw [h1] at h2
      simp only [Except.ok.injEq, Prod.mk.injEq, Option.some.injEq] at h2
      obtain ⟨rfl, rfl⟩ := h2
      rw [ih h3]

end LG
