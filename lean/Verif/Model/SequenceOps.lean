import Verif.Model.Sdsl
/-! # sequence_ops.h -/
namespace Sri
set_option autoImplicit false

/-- CircularPredecessor (sequence_ops.h:18-44): constructor computes `n_ones_ = rank_(size)`;
    call computes `order = (rank(i)+n_ones-1) % n_ones`, `value = select(order+1)`. -/
def circularPredecessor (rank select : Nat → Option Nat) (size : Nat) (i : Nat) :
    Option (Nat × Nat) := do
  let ones ← rank size
  let r ← rank i
  let x ← csub (r + ones) 1
  let order ← cmod x ones
  let value ← select (order + 1)
  return (order, value)

/-- CircularSoftSuccessor (sequence_ops.h:56-82): `order = rank(i) % n_ones`. -/
def circularSoftSuccessor (rank select : Nat → Option Nat) (size : Nat) (i : Nat) :
    Option (Nat × Nat) := do
  let ones ← rank size
  let r ← rank i
  let order ← cmod r ones
  let value ← select (order + 1)
  return (order, value)

end Sri
