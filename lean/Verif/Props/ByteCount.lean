import Verif.Proofs.ByteCount
import Verif.Props.Streams
/-! # C57: the number that serialize returns -/
namespace Sri
set_option autoImplicit false

variable {α : Type}

/-! ## A concrete stream of numbers, with values of different lengths -/

/-- integers take 8 symbols, the vectors their length and their elements, the wavelet trees twice that -/
def numberPrims : CountingPrims Nat where
  encSize := fun x => List.replicate 8 x
  decSize := fun _ => none
  encInts := fun x => x.length :: x
  decInts := fun _ => none
  encBits := fun x => x.length :: x.map (·.toNat)
  decBits := fun _ => none
  encSd := fun x => [x.length, (x.filter id).length]
  decSd := fun _ => none
  encWt := fun x => x.length :: x ++ x
  decWt := fun _ => none
  encAlphabet := fun x => x.sigma :: x.C
  decAlphabet := fun _ => none
  encSupport := fun _ x => [x.length]
  decSupport := fun _ _ => none
  sizeOf := 8
  retInts := fun x => x.length + 1
  retBits := fun x => x.length + 1
  retSd := fun _ => 2
  retWt := fun x => 2 * x.length + 1
  retAlphabet := fun x => x.C.length + 1
  retSupport := fun _ _ => 1

theorem numberPrims_reports : numberPrims.Reports where
  size := fun x => by simp [numberPrims]
  ints := fun x => by simp [numberPrims]
  bits := fun x => by simp [numberPrims]
  sd := fun x => by simp [numberPrims]
  wt := fun x => by simp [numberPrims]; omega
  alphabet := fun x => by simp [numberPrims]
  support := fun _ x => by simp [numberPrims]

/-! ## C57 -/

/-- **C57**, indexes. Whatever the class of an index, its rate and what its storage holds (also when items are missing), serialize
    writes the stream that C30 and C46 speak of, and returns the number of bytes in it. -/
theorem c57_index (A : CountingPrims α) (hA : A.Reports) (dens : Nat) (I : Object) (S : Storage) :
    (I.serializeC A true S).bytes = I.serialize (codecOf A.toPrims dens) S ∧
      (I.serializeC A true S).ret = (I.serialize (codecOf A.toPrims dens) S).length :=
  ⟨Object.bytes_serializeC dens I S, by rw [← Object.bytes_serializeC dens I S]; exact Object.honest_serializeC hA true I S⟩

/-- **C57**, indexes, read back: for every index type, text and rate, load(in) of a fresh object of the same class consumes exactly as many
    bytes as serialize has returned, so that what a caller writes behind an index is found at that distance.
    (The restriction of C30 to readable streams: `c30_plain_violation`.) -/
theorem c57_index_load (A : CountingPrims α) (hA : A.Reports) (hF : A.toPrims.Faithful) (t : IndexType) (b : BvKind) (T sa : List Nat)
    (hT : IsText T) (hsa : IsSA T sa) (hn : T.length < 2^64) (s : Nat) (C : Cache) (hC : C.HasIndex t b T sa s)
    (hb : b = .sd ∨ (t.overPositions && t.withMarks) = false) (rest : List α) :
    ∃ I S o, (Object.fresh t b (rateArg t s)).loadCache (codecOf A.toPrims 64) [] C = some (I, S) ∧ I.serializeC A true S = o ∧
      ∃ I' S', (Object.fresh t b (rateArg t s)).loadStream (codecOf A.toPrims 64) [] (o.bytes ++ rest) =
        some (I', S', (o.bytes ++ rest).drop o.ret) := by
  obtain ⟨q, I, S, I', S', -, h1, -, h2, -⟩ := c46_index_partial A.toPrims hF t b T sa hT hsa hn s C hC hb rest
  obtain ⟨e1, e2⟩ := c57_index A hA 64 I S
  refine ⟨I, S, _, h1, rfl, I', S', ?_⟩
  rw [e1, h2, e2, List.drop_left]

/-- **C57**, the structures with one class each: RLEString and its bit vectors, enc_vector, PsiCoreRLE, PsiCoreBV (over sd_vector or
    bit_vector), the sparse vectors. Whatever such an object holds, its serialize returns the number of bytes it writes, which are those of C46. -/
theorem c57_structures (A : CountingPrims α) (hA : A.Reports) :
    (∀ (b : BvKind) (x : RLEObject), (x.serializeC A b).bytes = x.serialize A.toPrims b ∧
      (x.serializeC A b).ret = (x.serialize A.toPrims b).length) ∧
    (∀ E : EncVector, (E.serializeC A).bytes = E.serialize A.toPrims ∧ (E.serializeC A).ret = (E.serialize A.toPrims).length) ∧
    (∀ P : PsiCoreRLE, (P.serializeC A true).bytes = P.serialize A.toPrims ∧ (P.serializeC A true).ret = (P.serialize A.toPrims).length) ∧
    (∀ (b : BvKind) (x : PsiBVObject), (x.serializeC A b).bytes = x.serialize A.toPrims b ∧
      (x.serializeC A b).ret = (x.serialize A.toPrims b).length) ∧
    (∀ x : SparseObject, (x.serializeC A).bytes = x.serialize A.toPrims ∧ (x.serializeC A).ret = (x.serialize A.toPrims).length) :=
  ⟨fun b x => ⟨RLEObject.bytes_serializeC b x, by rw [← RLEObject.bytes_serializeC]; exact RLEObject.honest hA b x⟩,
    fun E => ⟨EncVector.bytes_serializeC E, by rw [← EncVector.bytes_serializeC]; exact EncVector.honest hA E⟩,
    fun P => ⟨PsiCoreRLE.bytes_serializeC P, by rw [← PsiCoreRLE.bytes_serializeC]; exact PsiCoreRLE.honest hA true P⟩,
    fun b x => ⟨PsiBVObject.bytes_serializeC b x, by rw [← PsiBVObject.bytes_serializeC]; exact PsiBVObject.honest hA b x⟩,
    fun x => ⟨SparseObject.bytes_serializeC x, by rw [← SparseObject.bytes_serializeC]; exact SparseObject.honest hA x⟩⟩

/-- **C57**, rle_string: its serialize either stops at a vector that is not there, as in C46, or returns the number of bytes it writes. -/
theorem c57_legacy_rle_string (A : CountingPrims α) (hA : A.Reports) (x : RleObject) :
    (x.serializeC A).map (fun o => (o.bytes, o.ret)) = (x.serialize A.toPrims).map (fun l => (l, l.length)) := by
  have h := RleObject.serializeC_eq (A := A) x
  cases hx : x.serializeC A with
  | none => rw [hx] at h; rw [← h]; rfl
  | some o =>
    rw [hx] at h
    rw [← h]
    simp only [Option.map_some, Option.some.injEq, Prod.mk.injEq, true_and]
    exact RleObject.honest hA x hx

theorem foldl_ret (A : CountingPrims α) (hA : A.Reports) : ∀ (l : List SparseObject) (s : Nat),
    l.foldl (fun s r => s + (r.serializeC A).ret) s = s + (l.flatMap (·.serialize A.toPrims)).length
  | [], s => by simp
  | x :: l, s => by
    have h : (x.serializeC A).ret = (x.serializeC A).bytes.length := SparseObject.honest hA x
    rw [List.foldl_cons, foldl_ret A hA l, h, SparseObject.bytes_serializeC, List.flatMap_cons, List.length_append]
    omega

/-- **C57**, rle_string::print_space: for every string that can be built (C41: not empty, no zero byte), the space it reports is what serialize writes without the
    three integers in front. -/
theorem c57_print_space (A : CountingPrims α) (hA : A.Reports) (xs : List Nat) (B : Nat) (hB : 1 ≤ B) (hb : ∀ c ∈ xs, c < 256)
    (s : RleString) (h : RleString.build xs B = some s) :
    ∃ bytes, (RleObject.ofString s).serialize A.toPrims = some bytes ∧ (RleObject.ofString s).printSpace A + 3 * A.sizeOf = bytes.length := by
  obtain ⟨hw, hs⟩ := rle_whole hB hb h
  have hn : (RleObject.ofString s).n ≠ 0 := by
    obtain ⟨hr, hx⟩ := built hB hb h
    show s.n ≠ 0
    rw [hr.n_eq, expand_rle]
    simpa using hx
  have hlen := hw.len
  have hruns : ((RleObject.ofString s).runs.serializeC A).ret = _ := SparseObject.honest hA _
  have hwt := hA.wt (RleObject.ofString s).heads
  have h1 := hA.size (RleObject.ofString s).n
  have h2 := hA.size (RleObject.ofString s).R
  have h3 := hA.size (RleObject.ofString s).B
  have e : (RleObject.ofString s).perLetter.take 256 = (RleObject.ofString s).perLetter := List.take_of_length_le (Nat.le_of_eq hlen)
  refine ⟨_, by rw [RleObject.serialize, if_neg hn, if_pos (Nat.le_of_eq hlen.symm), e], ?_⟩
  simp only [RleObject.printSpace, foldl_ret A hA, hruns, SparseObject.bytes_serializeC, CountingPrims.wt, List.length_append]
  omega

/-! ## Examples -/

def atomCounting : CountingPrims Atom :=
  { atomPrims with
    sizeOf := 1, retInts := fun _ => 1, retBits := fun _ => 1, retSd := fun _ => 1, retWt := fun _ => 1, retAlphabet := fun _ => 1,
    retSupport := fun _ _ => 1 }

theorem atomCounting_reports : atomCounting.Reports where
  size := fun _ => rfl
  ints := fun _ => rfl
  bits := fun _ => rfl
  sd := fun _ => rfl
  wt := fun _ => rfl
  alphabet := fun _ => rfl
  support := fun _ _ => rfl

/-- what serialize returns for the constructed and loaded index of `exText`, and the number of symbols it writes -/
def exReturned (t : IndexType) (b : BvKind) (s : Nat) : Option (Nat × Nat) := do
  let (I, S) ← (Object.fresh t b (rateArg t s)).loadCache tokenCodec [] (indexCache t b exText exSA s)
  let o := I.serializeC numberPrims true S
  return (o.ret, o.bytes.length)

example : exReturned .srIndexValidArea .sd 2 = some (86, 86) ∧ exReturned .srCSAValidArea .plain 3 = some (158, 158) ∧
    exReturned .psiValidArea .plain 3 = some (148, 148) := by decide +kernel

example : ∃ I S o, (Object.fresh .srCSAValidArea .sd (some 2)).loadCache (codecOf atomPrims 64) [] (indexCache .srCSAValidArea .sd exText exSA 2) =
      some (I, S) ∧ I.serializeC atomCounting true S = o ∧
      ∃ I' S', (Object.fresh .srCSAValidArea .sd (some 2)).loadStream (codecOf atomPrims 64) [] (o.bytes ++ [Atom.size 7]) =
        some (I', S', (o.bytes ++ [Atom.size 7]).drop o.ret) :=
  c57_index_load atomCounting atomCounting_reports atomPrims_faithful .srCSAValidArea .sd exText exSA exText_isText exSA_isSA (by decide +kernel) 2
    (indexCache .srCSAValidArea .sd exText exSA 2) ⟨(partsOf .srCSAValidArea exText exSA 2).get (by decide +kernel), by simp, by decide +kernel⟩ (by decide) _

-- an index whose storage is empty: only the rate is written, and counted
example : (Object.serializeC numberPrims true (Object.fresh .srIndexValidArea .sd (some 5)) []).ret = 8 := by decide +kernel

example : ∃ S, RLEString.build [2,2,5,1,1,1,2] 2 = some S ∧ ((RLEObject.ofString .plain S).serializeC numberPrims .plain).ret = 68 ∧
    ((RLEObject.ofString .plain S).serialize numberPrims.toPrims .plain).length = 68 := by
  refine ⟨_, rfl, ?_⟩; decide +kernel

example : (RleString.build [2,2,5,1,1,1,2] 2).bind (fun s => ((RleObject.ofString s).serializeC numberPrims).map
    (fun o => (o.ret, o.bytes.length, (RleObject.ofString s).printSpace numberPrims))) = some (2097, 2097, 2073) := by decide +kernel

/-! ## The order of the operands in the serialize of a pair -/

/-- **C57**, PsiCoreRLE under both orders in which a compiler can evaluate the operands of `+` in io.h:21: the number returned is right in either
    case. -/
theorem c57_pair_order (A : CountingPrims α) (hA : A.Reports) (left : Bool) (P : PsiCoreRLE) :
    (P.serializeC A left).ret = (P.serializeC A left).bytes.length :=
  PsiCoreRLE.honest hA left P

/-- **C46**, what the order does to the stream: with the right operand first, no PsiCoreRLE of a text (it has at least one symbol) can be read
    back; with the left one first every one can (`c46_psi`). The C++ standard leaves the order to the compiler, so the round trip of the
    indexes over psi rests on the compiler's choice. Stated for streams of tagged values. -/
theorem c46_pair_order_violation (dens : Nat) (P : PsiCoreRLE) (hP : P.parts ≠ []) (rest : List Atom) :
    PsiCoreRLE.load atomPrims dens ((P.serializeC atomCounting false).bytes ++ rest) = none := by
  obtain ⟨n, first, parts⟩ := P
  cases parts with
  | nil => exact absurd rfl hP
  | cons q l =>
    simp [PsiCoreRLE.serializeC, CountingPrims.bytes_vec, encVec, pairSerialize, PsiCoreRLE.load, decVec, decEach, decPart, EncVector.load,
      atomCounting, atomPrims]

example : ∃ P, PsiCoreRLE.build 4 [0, 1, 3, 5] [3, 0, 4, 1, 2] = some P ∧ P.parts ≠ [] ∧
    (PsiCoreRLE.load atomPrims 4 (P.serializeC atomCounting true).bytes) = some (P, []) := by
  refine ⟨_, rfl, ?_⟩; decide +kernel

end Sri
