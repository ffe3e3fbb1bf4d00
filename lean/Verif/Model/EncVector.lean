import Verif.Model.Sdsl
/-! # coder.h and enc_vector.hpp: difference-coded vectors

Bits of `m_z` are a list of booleans, lowest bit of the first word first. The word pointer and the bit offset of the code
(`d`, `offset`) are one absolute bit position. Values are 64-bit words: subtraction and addition wrap. -/
namespace Sri
set_option autoImplicit false

/-- number of values of a 64-bit word -/
def W64 : Nat := 2 ^ 64

/-- the low `len` bits of `x`, lowest first (contract of sdsl::bits::write_int_and_move) -/
def bitsOf (len x : Nat) : List Bool := (List.range len).map (fun i => x.testBit i)

/-- value of a list of bits, lowest first -/
def ofBits : List Bool → Nat
  | [] => 0
  | b :: l => b.toNat + 2 * ofBits l

/-- sdsl::bits::read_int_and_move (used in coder.h:26-27): `len` bits from position `pos` on; past the end of the vector is
    undefined -/
def readInt (z : List Bool) (pos len : Nat) : Option Nat :=
  if pos + len ≤ z.length then some (ofBits ((z.drop pos).take len)) else none

/-- sdsl::bits::read_unary_and_move (used in coder.h:22): number of zeros before the next one -/
def readUnary : List Bool → Option Nat
  | [] => none
  | true :: _ => some 0
  | false :: l => (readUnary l).map (· + 1)

/-- sdsl::coder::elias_delta::encode (used in enc_vector.hpp:281), by its documented format: the length of the length in unary, the
    length without its top bit, the number without its top bit; 0 is coded as 2^64 -/
def eliasEncode (x : Nat) : List Bool :=
  let w := if x = 0 then W64 else x
  let len := Nat.log2 w + 1
  let len1 := Nat.log2 len
  List.replicate len1 false ++ [true] ++ bitsOf len1 len ++ bitsOf (len - 1) w

/-- decode<elias_delta> (coder.h:17-32): the value coded at position `pos` and the position after it -/
def eliasDecode (z : List Bool) (pos : Nat) : Option (Nat × Nat) := do
  let len1 ← readUnary (z.drop pos)
  let pos := pos + (len1 + 1)
  if len1 = 0 then return (1, pos)
  else
    let low ← readInt z pos len1
    let len := low + 2 ^ len1
    let v ← readInt z (pos + len1) (len - 1)
    return (v + (if len - 1 < 64 then 2 ^ (len - 1) else 0), pos + len1 + (len - 1))

/-- 64-bit subtraction with wrap-around -/
def wsub (a b : Nat) : Nat := (a + W64 - b) % W64

/-- enc_vector (enc_vector.hpp:61-192); `dens` is the template parameter t_dens -/
structure EncVector where
  dens : Nat
  size : Nat
  sp : List Nat
  z : List Bool
deriving Repr, DecidableEq

namespace EncVector

/-- the loop of the constructor (enc_vector.hpp:254-284): `k` is no_sample, `v1` the previous value, `sp` and `z` what has been written.
    The three passes of the code (sizes, samples and pointers, codes) use the same counter; here they are one, and z_size is the number
    of bits written so far (contract of encoding_length). -/
def buildLoop (dens : Nat) : Nat → Nat → List Nat → List Bool → List Nat → List Nat × List Bool
  | _, _, sp, z, [] => (sp ++ [0, z.length + 1], z)
  | 0, _, sp, z, v2 :: vs => buildLoop dens (dens - 1) v2 (sp ++ [v2, z.length]) z vs
  | k + 1, v1, sp, z, v2 :: vs => buildLoop dens k v2 sp (z ++ eliasEncode (wsub v2 v1)) vs

/-- the constructor from a container (enc_vector.hpp:221-287) -/
def build (dens : Nat) (c : List Nat) : EncVector :=
  if c = [] then { dens := dens, size := 0, sp := [], z := [] }
  else
    let r := buildLoop dens 0 (c.headD 0) [] [] c
    { dens := dens, size := c.length, sp := r.1, z := r.2 }

/-- sample (enc_vector.hpp:203-209) -/
def sample (E : EncVector) (i : Nat) : Option Nat := do
  assertC (decide (i * E.dens < E.size))
  E.sp[2 * i]?

/-- elias_delta::decode_prefix_sum (used in enc_vector.hpp:200): sum of the next `m` coded values -/
def prefixSum (z : List Bool) : Nat → Nat → Option Nat
  | _, 0 => some 0
  | pos, m + 1 => do
    let (v, pos) ← eliasDecode z pos
    let s ← prefixSum z pos m
    return (v + s) % W64

/-- operator[] (enc_vector.hpp:194-201) -/
def get (E : EncVector) (i : Nat) : Option Nat := do
  assertC (decide (i < E.size))
  let idx := i / E.dens
  let s ← E.sp[2 * idx]?
  let p ← E.sp[2 * idx + 1]?
  let d ← prefixSum E.z p (i - E.dens * idx)
  return (s + d) % W64

end EncVector
end Sri
