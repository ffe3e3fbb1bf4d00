import Verif.Model.Sdsl
/-! # index_base.h: RIndexBase, the backward search shared by every index -/
namespace Sri
set_option autoImplicit false

/-- The functors an index hands to `RIndexBase` (index_base.h:207-223). `ρ` is the range type, `ν` the type `lf`
    returns, `δ` the toehold data. -/
structure Functors (ρ ν δ : Type) where
  lf : ρ → Nat → Option ν
  /-- assignment `range = next_range` -/
  toRange : ν → ρ
  update : ρ → ν → Nat → Nat → δ → Option δ
  computeAll : ρ → δ → Option (List Nat)
  bwtSize : Nat
  initial : Nat → δ
  getSymbol : Nat → Nat
  fullRange : Nat → ρ
  isEmpty : ρ → Bool
  /-- the pair a `Count` report takes out of a range (index_base.h:258-261) -/
  bounds : ρ → Nat × Nat

namespace Functors
variable {ρ ν δ : Type}

/-- loop of Count (index_base.h:271-274); the argument list is the part of the reversed pattern not read yet -/
def countLoop (F : Functors ρ ν δ) : List Nat → ρ → Option ρ
  | [], range => some range
  | ch :: rest, range =>
    if F.isEmpty range then some range
    else do
      let next ← F.lf range (F.getSymbol ch)
      countLoop F rest (F.toRange next)

/-- Count (index_base.h:256-278) -/
def count (F : Functors ρ ν δ) (P : List Nat) : Option (Nat × Nat) := do
  let r ← F.countLoop P.reverse (F.fullRange F.bwtSize)
  return F.bounds r

/-- loop of Locate (index_base.h:240-248). The counter `i` starts at `pattern.size() - 1` and drops by one per character, so it is the
    number of characters not read yet after the current one. -/
def locateLoop (F : Functors ρ ν δ) : List Nat → ρ → δ → Option (ρ × δ)
  | [], range, data => some (range, data)
  | ch :: rest, range, data =>
    if F.isEmpty range then some (range, data)
    else do
      let c := F.getSymbol ch
      let next ← F.lf range c
      let data ← F.update range next c rest.length data
      locateLoop F rest (F.toRange next) data

/-- Locate (index_base.h:223-254): the reported values in order. For an empty pattern the start value of `i` wraps, but the initial
    toehold data ignore it (r_index.h:109, sr_index.h:100). -/
def locate (F : Functors ρ ν δ) (P : List Nat) : Option (List Nat) := do
  let (range, data) ← F.locateLoop P.reverse (F.fullRange F.bwtSize) (F.initial (P.length - 1))
  if F.isEmpty range then return [] else F.computeAll range data

end Functors
end Sri
