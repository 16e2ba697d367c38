import Verif.Py.Basic

/-! # Python list indexing and slicing (with negative indices) -/

namespace Verif.Py

/-- Position meant by the index `i` in a list of length `n`; `none` if out of range. -/
def index? (n : Nat) (i : Int) : Option Nat :=
  if 0 ≤ i then (if i.toNat < n then some i.toNat else none)
  else if 0 ≤ (n : Int) + i then some ((n : Int) + i).toNat else none

/-- `xs[i]` -/
def get {α : Type} (xs : List α) (i : Int) : Except Err α :=
  match index? xs.length i with
  | none => .error .indexError
  | some k => match xs[k]? with
    | none => .error .indexError
    | some x => .ok x

/-- Bound of a slice, clamped to `[0, n]`. -/
def clamp (n : Nat) (i : Int) : Nat :=
  if i < 0 then ((n : Int) + i).toNat else min i.toNat n

/-- `xs[a:b]` -/
def slice {α : Type} (xs : List α) (a b : Int) : List α :=
  (xs.drop (clamp xs.length a)).take (clamp xs.length b - clamp xs.length a)

/-- `xs[a:b] = ys` (the new list) -/
def setSlice {α : Type} (xs : List α) (a b : Int) (ys : List α) : List α :=
  let a' := clamp xs.length a
  let b' := max a' (clamp xs.length b)
  xs.take a' ++ ys ++ xs.drop b'

end Verif.Py
