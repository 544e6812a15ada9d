import Verif.Num.F64
/-!
# Panics, indexing and loops

Conventions shared by all model files.
-/

namespace Verif

/-- The ways the modelled Rust code can panic. -/
inductive Panic where
  /-- `v[i]` with `i >= v.len()` -/
  | index
  /-- failed `assert_eq!` -/
  | assertion
  /-- `unwrap` of `None` -/
  | unwrapNone
  /-- `unwrap` of `Err`, or failed `expect` -/
  | unwrapErr
  /-- integer overflow (debug profile) -/
  | overflow
  deriving DecidableEq, Repr

/-- Result of running a piece of Rust code: a value or a panic. -/
abbrev R := Except Panic

/-- `v[i]` as a read. -/
def idx {α : Type} (v : List α) (i : Nat) : R α :=
  match v[i]? with
  | some a => .ok a
  | none => .error .index

/-- `v[i] = a`. -/
def setIdx {α : Type} (v : List α) (i : Nat) (a : α) : R (List α) :=
  if i < v.length then .ok (v.set i a) else .error .index

/-- `assert_eq!(a, b)` on lengths. -/
def assertEq (a b : Nat) : R Unit :=
  if a = b then .ok () else .error .assertion

/-- `o.unwrap()` on an `Option`. -/
def unwrap {α : Type} : Option α → R α
  | some a => .ok a
  | none => .error .unwrapNone

/-- `x += 1` on a `u32` in the debug profile (the profile of `cargo test` and `cargo run`): overflow panics. -/
def incrU32 (n : Nat) : R Nat :=
  if n + 1 < 2 ^ 32 then .ok (n + 1) else .error .overflow

/-- `n as u32`. -/
def castU32 (n : Nat) : Nat := n % 2 ^ 32

/-- `for i in 0..n { s = body(i, s) }` -/
def forRange {σ : Type} (n : Nat) (body : Nat → σ → R σ) (init : σ) : R σ :=
  (List.range n).foldlM (fun s i => body i s) init

/-- `for (i, a) in v.iter().enumerate() { s = body(i, a, s) }` -/
def forEnum {α σ : Type} (v : List α) (body : Nat → α → σ → R σ) (init : σ) : R σ :=
  v.zipIdx.foldlM (fun s p => body p.2 p.1 s) init

end Verif
