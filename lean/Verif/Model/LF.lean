import Verif.Model.RCSA
/-! # lf.h: the LF functors -/
namespace Sri
set_option autoImplicit false

/-- lf (lf.h:25-44): one step of the backward search, given a rank function, the cumulative counts and how to make the new range. The
    last argument is never read: the header announces it as the answer when the character is not in the range. -/
def lfWith {V R : Type} (rankC : Nat → Nat → Option V) (cumulative : Nat → Option Nat) (first last c : Nat) (create : V → V → Nat → R)
    (_empty : R) : Option R := do
  let before ← rankC c first
  let upto ← rankC c last
  let smaller ← cumulative c
  return create before upto smaller

/-- the general functor (lf.h:52-91), called with a pair (68-72) or with two positions (81-84): the members are the arguments of `lf` -/
def LFGeneral {V R : Type} (rankC : Nat → Nat → Option V) (cumulative : Nat → Option Nat) (create : V → V → Nat → R) (empty : R)
    (range : Nat × Nat) (c : Nat) : Option R :=
  lfWith rankC cumulative range.1 range.2 c create empty

/-- the functor that makes plain ranges (lf.h:96-122) and its subclass LFOnPsi (lf.h:127-134); `C` is read through
    RandomAccessForCRefContainer (tools.h:23-39) -/
def LFOnPsi (rankC : Nat → Nat → Option Nat) (C : List Nat) (range : Nat × Nat) (c : Nat) : Option (Nat × Nat) :=
  lfWith rankC (fun c => C[c]?) range.1 range.2 c (fun before upto smaller => (smaller + before, smaller + upto)) (1, 0)

/-- the ranges LFOnPsi makes when it is applied to the characters of a pattern one after the other, last character first, starting
    from the whole range `[0,n)` (what the tests of lf.h do step by step, test/lf_tests.cpp:22-107) -/
def lfSearch (rankC : Nat → Nat → Option Nat) (C : List Nat) (n : Nat) : List Nat → Option (Nat × Nat)
  | [] => some (0, n)
  | c :: P => do
    let r ← lfSearch rankC C n P
    LFOnPsi rankC C r c

end Sri
