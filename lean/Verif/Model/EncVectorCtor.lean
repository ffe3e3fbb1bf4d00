import Verif.Model.EncVector
/-! # enc_vector.hpp: the constructors pass by pass, with the cells they allocate

`EncVector.build` writes the samples, pointers and codes as it goes. Here the passes are those of the code: the first one measures, the
arrays are allocated from what it measured (the cells of the samples and pointers with a width in bits, to which every value written is
cut), and the later passes write into them. Writing outside an array is undefined (`none`). `t_width` is 0, as in the library: the width
is chosen at run time. -/
namespace Sri
set_option autoImplicit false
namespace EncVector

/-- t_coder::encoding_length (used in enc_vector.hpp:241, 263, 311, 337): number of bits of the code -/
def encodingLength (x : Nat) : Nat := (eliasEncode x).length

/-- what the first pass finds out: max_sample_value, samples, z_size -/
structure Measured where
  maxSample : Nat
  samples : Nat
  zSize : Nat
deriving Repr, DecidableEq

/-- pass (1) of both constructors (enc_vector.hpp:233-244 and 304-314): `k` is no_sample, `v1` the previous value -/
def measure (dens : Nat) : Nat → Nat → Measured → List Nat → Measured
  | _, _, M, [] => M
  | 0, _, M, v2 :: vs =>
    measure dens (dens - 1) v2
      { M with maxSample := if M.maxSample < v2 then v2 else M.maxSample, samples := M.samples + 1 } vs
  | k + 1, v1, M, v2 :: vs => measure dens k v2 { M with zSize := M.zSize + encodingLength (wsub v2 v1) } vs

/-- the width given to the samples and pointers (enc_vector.hpp:247-250 and 318-321); sdsl::bits::hi is the position of the highest
    bit, 0 for 0 -/
def Measured.width (M : Measured) : Nat :=
  if M.maxSample > M.zSize + 1 then Nat.log2 M.maxSample + 1 else Nat.log2 (M.zSize + 1) + 1

/-- assignment to a cell of an int_vector of the given width: the low `w` bits are kept -/
def setCell (w : Nat) (a : List Nat) (j v : Nat) : Option (List Nat) :=
  if j < a.length then some (a.set j (v % 2 ^ w)) else none

/-- t_coder::encode(x, z_data, offset) (enc_vector.hpp:281, 338): the code is written from the current position on -/
def putCode (z : List Bool) (pos x : Nat) : Option (List Bool) :=
  if pos + encodingLength x ≤ z.length then some (z.take pos ++ eliasEncode x ++ z.drop (pos + encodingLength x)) else none

/-- the second pass of the constructor from a container (enc_vector.hpp:255-269): samples and pointers, then the last entry; `j` is the
    position of sv_it -/
def writeSamples (dens w : Nat) : Nat → Nat → Nat → Nat → List Nat → List Nat → Option (List Nat)
  | _, _, j, zs, a, [] => do
    let a ← setCell w a j 0
    setCell w a (j + 1) (zs + 1)
  | 0, _, j, zs, a, v2 :: vs => do
    let a ← setCell w a j v2
    let a ← setCell w a (j + 1) zs
    writeSamples dens w (dens - 1) v2 (j + 2) zs a vs
  | k + 1, v1, j, zs, a, v2 :: vs => writeSamples dens w k v2 j (zs + encodingLength (wsub v2 v1)) a vs

/-- the third pass of the constructor from a container (enc_vector.hpp:271-284): the codes; `pos` is z_data and offset -/
def writeCodes (dens : Nat) : Nat → Nat → Nat → List Bool → List Nat → Option (List Bool)
  | _, _, _, z, [] => some z
  | 0, _, pos, z, v2 :: vs => writeCodes dens (dens - 1) v2 pos z vs
  | k + 1, v1, pos, z, v2 :: vs => do
    let z ← putCode z pos (wsub v2 v1)
    writeCodes dens k v2 (pos + encodingLength (wsub v2 v1)) z vs

/-- the constructor from a container (enc_vector.hpp:221-287), pass by pass. z_size is counted twice by the code; m_z gets the size of
    the second count, which is the first one's since the loops are the same. `v1` enters the later passes as the last value of the
    container (it is not read before it is set again). -/
def ofContainer (dens : Nat) (c : List Nat) : Option EncVector :=
  if c = [] then some { dens := dens, size := 0, sp := [], z := [] }
  else do
    let M := measure dens 0 (c.headD 0) { maxSample := 0, samples := 0, zSize := 0 } c
    let sp ← writeSamples dens M.width 0 (c.getLastD 0) 0 0 (List.replicate (2 * M.samples + 2) 0) c
    let z ← writeCodes dens 0 (c.getLastD 0) 0 (List.replicate M.zSize false) c
    some { dens := dens, size := c.length, sp := sp, z := z }

/-- the writing pass of the constructor from a buffer (enc_vector.hpp:330-341): samples, pointers and codes in one pass; there is no
    last entry -/
def writeBoth (dens w : Nat) : Nat → Nat → Nat → Nat → List Nat → List Bool → List Nat → Option (List Nat × List Bool)
  | _, _, _, _, a, z, [] => some (a, z)
  | 0, _, j, zs, a, z, v2 :: vs => do
    let a ← setCell w a j v2
    let a ← setCell w a (j + 1) zs
    writeBoth dens w (dens - 1) v2 (j + 2) zs a z vs
  | k + 1, v1, j, zs, a, z, v2 :: vs => do
    let z ← putCode z zs (wsub v2 v1)
    writeBoth dens w k v2 j (zs + encodingLength (wsub v2 v1)) a z vs

/-- the constructor from an int_vector_buffer (enc_vector.hpp:289-343) -/
def ofBuffer (dens : Nat) (c : List Nat) : Option EncVector :=
  if c.length = 0 then some { dens := dens, size := 0, sp := [], z := [] }
  else do
    let M := measure dens 0 0 { maxSample := 0, samples := 0, zSize := 0 } c
    let r ← writeBoth dens M.width 0 (c.getLastD 0) 0 0 (List.replicate (2 * M.samples + 2) 0) (List.replicate M.zSize false) c
    some { dens := dens, size := c.length, sp := r.1, z := r.2 }

/-- t_coder::decode<true, true>(d, start_idx, n, it) (used in enc_vector.hpp:186-189), by its documentation: `n` values are decoded and
    written one after the other, each added to the sum `s` of those before -/
def decodeSums (z : List Bool) : Nat → Nat → Nat → Option (List Nat)
  | _, 0, _ => some []
  | pos, n + 1, s => do
    let (v, pos) ← eliasDecode z pos
    let l ← decodeSums z pos n ((s + v) % W64)
    return ((s + v) % W64) :: l

/-- get_inter_sampled_values (enc_vector.hpp:182-191): what is written to `it` -/
def interSampled (E : EncVector) (i : Nat) : Option (List Nat) := do
  if i * E.dens + E.dens - 1 < E.size then
    let p ← E.sp[2 * i + 1]?
    let l ← decodeSums E.z p (E.dens - 1) 0
    return 0 :: l
  else
    assertC (decide (i * E.dens < E.size))
    let p ← E.sp[2 * i + 1]?
    let l ← decodeSums E.z p (E.size - i * E.dens - 1) 0
    return 0 :: l

/-- swap (enc_vector.hpp:211-219): the two objects afterwards (the density is part of the type) -/
def swap (A B : EncVector) : EncVector × EncVector :=
  ({ A with z := B.z, sp := B.sp, size := B.size }, { B with z := A.z, sp := A.sp, size := A.size })

end EncVector
end Sri
