import Verif.Model.Psi
import Verif.Model.SequenceOps
/-! # construct.h, bwt.h: psi of a text and LF -/
namespace Sri
set_option autoImplicit false

/-- what constructPsi leaves in the cache (construct.h:69-92) -/
structure PsiItems where
  psi : List Nat
  core : PsiCoreRLE
deriving Repr, DecidableEq

/-- constructPsi(config) (construct.h:69-92): psi from the run-length BWT and the array `C`, and its run-length representation with the
    default sampling period 64 (psi.h:50). `bit_compress` changes the width of the stored integers, not their values. -/
def constructPsiItems (b : BaseItems) : Option PsiItems := do
  let syms ← (List.range b.n).mapM b.bwtRle.access
  let psi ← constructPsi syms b.alphabet.C
  let core ← PsiCoreRLE.build 64 b.alphabet.C psi
  return { psi := psi, core := core }

/-- BasicLF::operator() (bwt.h:124-127) with the functions of construct.h:178-190 (`RLEString` access and rank, `C`) -/
def basicLF (S : RLEString) (C : List Nat) (i : Nat) : Option Nat := do
  let c ← S.access i
  let f ← C[c]?
  let r ← S.rank i c
  return f + r

end Sri
