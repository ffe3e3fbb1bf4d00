/-! # What it means that a mark was kept next to another one

Stated over the bit vectors of marks that the full index and the sub-sampled index load; no definition of the model is used. -/
namespace Sri
set_option autoImplicit false

/-- position `m` of the text is marked -/
def MarkSet (bv : List Bool) (m : Nat) : Prop := bv[m]? = some true

/-- the first position after `p` that is marked in `all`, if there is one, is marked in `kept` -/
def NextKept (all kept : List Bool) (p : Nat) : Prop :=
  ∀ m, p < m → MarkSet all m → (∀ x, p < x → MarkSet all x → m ≤ x) → MarkSet kept m

/-- the last position before `p` that is marked in `all`, if there is one, is marked in `kept` -/
def PrevKept (all kept : List Bool) (p : Nat) : Prop :=
  ∀ m, m < p → MarkSet all m → (∀ x, x < p → MarkSet all x → x ≤ m) → MarkSet kept m

end Sri
