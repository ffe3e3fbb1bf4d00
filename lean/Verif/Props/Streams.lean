import Verif.Proofs.Streams
import Verif.Proofs.PsiBuild
import Verif.Props.Serialize
import Verif.Props.RleString
/-! # C46: streams of the data structures -/
namespace Sri
set_option autoImplicit false

/-! ## A concrete stream -/

/-- one symbol per value of sdsl -/
inductive Atom where
  | size (x : Nat)
  | ints (x : List Nat)
  | bits (x : List Bool)
  | sd (x : List Bool)
  | wt (x : List Nat)
  | alphabet (x : Alphabet)
  | support (k : SupportKind) (x : List Bool)
deriving DecidableEq, Repr

def atomPrims : Prims Atom where
  encSize := fun x => [.size x]
  decSize := fun l => match l with | .size x :: l => some (x, l) | _ => none
  encInts := fun x => [.ints x]
  decInts := fun l => match l with | .ints x :: l => some (x, l) | _ => none
  encBits := fun x => [.bits x]
  decBits := fun l => match l with | .bits x :: l => some (x, l) | _ => none
  encSd := fun x => [.sd x]
  decSd := fun l => match l with | .sd x :: l => some (x, l) | _ => none
  encWt := fun x => [.wt x]
  decWt := fun l => match l with | .wt x :: l => some (x, l) | _ => none
  encAlphabet := fun x => [.alphabet x]
  decAlphabet := fun l => match l with | .alphabet x :: l => some (x, l) | _ => none
  encSupport := fun k x => [.support k x]
  decSupport := fun k l => match l with | .support k' x :: l => if k' = k then some (x, l) else none | _ => none

theorem atomPrims_faithful : atomPrims.Faithful where
  size := fun _ _ => rfl
  ints := fun _ _ => rfl
  bits := fun _ _ => rfl
  sd := fun _ _ => rfl
  wt := fun _ _ => rfl
  alphabet := fun _ _ => rfl
  support := by intro k x rest; simp [atomPrims]

/-! ## C46 -/

variable {α : Type}

/-- **C46**, RLEString. Whatever runs it holds (in particular those of any sequence, with any block
    size), over sd_vector or bit_vector, RLEString writes a stream from which load
    reads exactly what was written, and the object read is complete: its operations work on the same runs, with supports of its own. -/
theorem c46_rle_string (A : Prims α) (hA : A.Faithful) (k : BvKind) (S : RLEString) (rest : List α) :
    ∃ y, RLEObject.load A k ((RLEObject.ofString k S).serialize A k ++ rest) = some (y, rest) ∧ y.view k = some S :=
  ⟨_, RLEObject.load_serialize hA k _ rest, RLEObject.view_reloaded (RLEObject.view_ofString k S)⟩

/-- **C46**, RLEString, repeatedly: the same for an object that was itself read or copied. -/
theorem c46_rle_string_again (A : Prims α) (hA : A.Faithful) (k : BvKind) (x : RLEObject) (S : RLEString) (hx : x.view k = some S) (rest : List α) :
    ∃ y, RLEObject.load A k (x.serialize A k ++ rest) = some (y, rest) ∧ y.view k = some S :=
  ⟨_, RLEObject.load_serialize hA k _ rest, RLEObject.view_reloaded hx⟩

example : ∃ S, RLEString.build [2,2,5,1,1,1,2] 2 = some S ∧ ∃ y,
    RLEObject.load atomPrims .plain ((RLEObject.ofString .plain S).serialize atomPrims .plain ++ [.size 7]) = some (y, [.size 7]) ∧
      y.view .plain = some S ∧ (S.rank 5 1) = some 2 := by
  refine ⟨_, rfl, _, rfl, ?_⟩; decide +kernel

/-- the vectors of psi have the density they were built with -/
theorem build_dens {dens : Nat} {C psi : List Nat} {P : PsiCoreRLE} (h : PsiCoreRLE.build dens C psi = some P) :
    ∀ q ∈ P.parts, q.1.dens = dens := by
  have key : ∀ (is : List Nat) (first : Nat) (parts : List (EncVector × List Nat)) (r : Nat × List (EncVector × List Nat)),
      PsiCoreRLE.buildLoop dens C psi is first parts = some r → (∀ q ∈ parts, q.1.dens = dens) → ∀ q ∈ r.2, q.1.dens = dens := by
    intro is
    induction is with
    | nil => intro first parts r h hp; simp only [PsiCoreRLE.buildLoop, Option.some.injEq] at h; rw [← h]; exact hp
    | cons i is ih =>
      intro first parts r h hp
      simp only [PsiCoreRLE.buildLoop, Option.bind_eq_bind, Option.bind_eq_some_iff] at h
      obtain ⟨_, -, _, -, _, -, _, -, h⟩ := h
      refine ih _ _ _ h ?_
      intro q hq
      rcases List.mem_append.1 hq with hq | hq
      · exact hp q hq
      · rw [List.mem_singleton] at hq
        rw [hq]
        have he : ∀ l, (EncVector.build dens l).dens = dens := by intro l; unfold EncVector.build; split <;> rfl
        unfold PsiCoreRLE.buildPart
        split
        · exact he _
        · exact he _
  unfold PsiCoreRLE.build at h
  simp only [Option.bind_eq_bind, Option.bind_eq_some_iff, Option.pure_def, Option.some.injEq] at h
  obtain ⟨_, -, _, -, ⟨first, parts⟩, h1, rfl⟩ := h
  exact key _ _ _ _ h1 (fun q hq => by cases hq)

/-- **C46**, PsiCoreRLE. For every density, alphabet and psi, the psi function writes a stream from which load, of the type with the same
    density, reads exactly what was written, and gives an equal psi function. -/
theorem c46_psi (A : Prims α) (hA : A.Faithful) (dens : Nat) (C psi : List Nat) (P : PsiCoreRLE) (h : PsiCoreRLE.build dens C psi = some P)
    (rest : List α) : PsiCoreRLE.load A dens (P.serialize A ++ rest) = some (P, rest) :=
  PsiCoreRLE.load_serialize hA dens P (build_dens h) rest

example : ∃ P, PsiCoreRLE.build 2 [0, 1, 3, 5] [3, 0, 4, 1, 2] = some P ∧ P.parts ≠ [] ∧
    PsiCoreRLE.load atomPrims 2 (P.serialize atomPrims ++ []) = some (P, []) := by
  refine ⟨_, rfl, ?_⟩; decide +kernel

/-- **C46**, PsiCoreBV: the psi function read back works on the same bit vectors, with supports of its own. -/
theorem c46_psi_bv (A : Prims α) (hA : A.Faithful) (k : BvKind) (P : PsiCoreBV) (rest : List α) :
    ∃ y, PsiBVObject.load A k ((PsiBVObject.ofCore k P).serialize A k ++ rest) = some (y, rest) ∧ y.view k = some P := by
  have hv := PsiBVObject.view_ofCore k P
  obtain ⟨h1, h2, -⟩ := PsiBVObject.view_eq_some.1 hv
  exact ⟨_, PsiBVObject.load_serialize hA k _ h1 h2 rest, PsiBVObject.view_reloaded hv⟩

example : ∃ P, PsiCoreBV.build [0, 1, 3, 5] [3, 0, 4, 1, 2] = some P ∧ ∃ y,
    PsiBVObject.load atomPrims .plain ((PsiBVObject.ofCore .plain P).serialize atomPrims .plain ++ []) = some (y, []) ∧ y.view .plain = some P := by
  refine ⟨_, rfl, _, rfl, ?_⟩; decide +kernel

/-- **C46**, sparse vectors (partial): a non-empty vector comes back from its stream, over any object. Missing: empty vectors, and vectors made
    from a bit_vector (`c46_sparse_violation`). -/
theorem c46_sparse_partial (A : Prims α) (hA : A.Faithful) (b : List Bool) (hb : b ≠ []) (old : SparseObject) (rest : List α) :
    old.load A ((SparseObject.ofBools b).serialize A ++ rest) = some (SparseObject.ofBools b, rest) ∧
      (SparseObject.ofBools b).view = some (SparseBV.ofBools b) := by
  have hl : b.length ≠ 0 := by simpa using hb
  have hw : (SparseObject.ofBools b).Whole := by rw [SparseObject.ofBools, if_neg hl]; exact ⟨rfl, rfl, rfl⟩
  refine ⟨?_, ?_⟩
  · rw [SparseObject.load_serialize hA old _ hw, SparseObject.reloaded, if_neg]
    rw [SparseObject.ofBools, if_neg hl]; exact hl
  · rw [SparseObject.ofBools, SparseBV.ofBools, if_neg hl, if_neg hl]; rfl

/-- **C46**, sparse vectors, violation. (1) The constructor from bit_vector leaves the size 0, so its bits are not written: whatever the bits, what
    is read into a new object has none. (2) A vector that was assigned an empty one answers number_of_1 with 0; after a round trip through a
    stream the question is undefined (the rank support has no vector). -/
theorem c46_sparse_violation (A : Prims α) (hA : A.Faithful) (rest : List α) :
    (∀ (b : List Bool) (x : SparseObject), x = { u := 0, bits := b, rank := .own, select := .own } →
      x.view = some (SparseBV.ofBitVector b) ∧ SparseObject.empty.load A (x.serialize A ++ rest) = some (SparseObject.empty, rest)) ∧
    (SparseObject.empty.assign.view.bind (·.numberOf1) = some 0 ∧
      ∃ y, SparseObject.empty.load A (SparseObject.empty.assign.serialize A ++ rest) = some (y, rest) ∧
        y.view.bind (·.numberOf1) = none) := by
  refine ⟨fun b x hx => ⟨by rw [hx]; rfl, ?_⟩, rfl, SparseObject.empty, ?_, rfl⟩
  · simp [hx, SparseObject.load, SparseObject.serialize, hA.size, SparseObject.empty]
  · simp [SparseObject.load, SparseObject.serialize, hA.size, SparseObject.empty, SparseObject.assign]

/-- the answers of two rle_strings are the same, including where they are undefined -/
structure SameAnswers (s t : RleString) : Prop where
  size : s.size = t.size
  runs : s.numberOfRuns = t.numberOfRuns
  toString : s.toString = t.toString
  access : ∀ i, s.access i = t.access i
  rank : ∀ i c, s.rank i c = t.rank i c
  select : ∀ i c, s.select i c = t.select i c
  runOf : ∀ i, s.runOf i = t.runOf i
  runOfPosition : ∀ i, s.runOfPosition i = t.runOfPosition i
  runAt : ∀ i, s.runAt i = t.runAt i
  runRange : ∀ i, s.runRange i = t.runRange i
  breakRange : ∀ l r c, s.breakRange l r c = t.breakRange l r c
  breakInRuns : ∀ l r, s.breakInRuns l r = t.breakInRuns l r
  closestRunBreak : ∀ l r c, s.closestRunBreak l r c = t.closestRunBreak l r c

/-- the constructor leaves a complete object, whose view is the string that C41 is about -/
theorem rle_whole {xs : List Nat} {B : Nat} {s : RleString} (hB : 1 ≤ B) (hb : ∀ c ∈ xs, c < 256) (h : RleString.build xs B = some s) :
    (RleObject.ofString s).Whole ∧ (RleObject.ofString s).string = s := by
  obtain ⟨hr, hx⟩ := built hB hb h
  have hn : s.n = xs.length := by rw [hr.n_eq, expand_rle]
  have hn0 : s.n ≠ 0 := by rw [hn]; simpa using hx
  have hu : ∀ l : List Bool, (SparseObject.ofBools l).bits = l := by
    intro l; unfold SparseObject.ofBools; split
    · rename_i h; exact (List.length_eq_zero_iff.1 h).symm
    · rfl
  have hlen := hr.len
  have hsym : ∀ y ∈ s.perLetter, y = { u := y.bits.length, bits := y.bits, bound := true } := by
    intro y hy
    obtain ⟨c, hc, rfl⟩ := List.getElem_of_mem hy
    obtain ⟨bv, h1, h2⟩ := hr.sym c (by omega)
    rw [List.getElem?_eq_getElem hc, Option.some.injEq] at h1
    obtain ⟨u, bits, bd⟩ := bv
    have e1 := h2.u; have e2 := h2.bits; have e3 := h2.bound
    rw [h1]
    dsimp only at e1 e2 e3 ⊢
    rw [e1, e2, e3]
  have hrl : s.runs.bits.length = xs.length := by
    have := hr.rep.size_eq
    rw [expand_rle] at this
    exact this
  have hruns : s.runs = { u := s.runs.bits.length, bits := s.runs.bits, bound := true } := by
    have e1 := hr.runs.u; have e2 := hr.runs.bits; have e3 := hr.runs.bound
    rw [← e2] at e1
    obtain ⟨_, runs, _, _, _, _⟩ := s
    obtain ⟨u, bits, bd⟩ := runs
    dsimp only at e1 e3 ⊢
    rw [e1, e3]
  refine ⟨⟨hn0, ?_, SparseObject.whole_assign _, ?_, ?_⟩, ?_⟩
  · show (SparseObject.ofBools s.runs.bits).bits.length ≠ 0
    rw [hu, hrl, ← hn]; exact hn0
  · show (s.perLetter.map _).length = 256
    rw [List.length_map, hlen]
  · intro y hy
    obtain ⟨bv, -, rfl⟩ := List.mem_map.1 hy
    exact SparseObject.whole_assign _
  · have e1 : (RleObject.ofString s).string.runs = s.runs := by
      rw [hruns]
      simp only [RleObject.string, RleObject.ofString, SparseObject.assign, hu]
    have e2 : (RleObject.ofString s).string.perLetter = s.perLetter := by
      simp only [RleObject.string, RleObject.ofString, SparseObject.assign, hu, List.map_map]
      conv => rhs; rw [← List.map_id s.perLetter]
      apply List.map_congr_left
      intro y hy
      exact (hsym y hy).symm
    have e3 : (RleObject.ofString s).string = { s with runs := (RleObject.ofString s).string.runs, perLetter := (RleObject.ofString s).string.perLetter } := rfl
    rw [e3, e1, e2]

/-- **C46**, rle_string. Built from any string of bytes with any block size, rle_string writes a stream from which load, over any other
    rle_string, reads exactly what was written, and then gives the same answer to every query. -/
theorem c46_legacy_rle_string (A : Prims α) (hA : A.Faithful) (xs : List Nat) (B : Nat) (hB : 1 ≤ B) (hb : ∀ c ∈ xs, c < 256) (s : RleString)
    (h : RleString.build xs B = some s) (old : RleObject) (rest : List α) :
    ∃ bytes y t, (RleObject.ofString s).view = some s ∧ (RleObject.ofString s).serialize A = some bytes ∧
      old.load A (bytes ++ rest) = some (y, rest) ∧ y.view = some t ∧ SameAnswers t s := by
  obtain ⟨hw, hs⟩ := rle_whole hB hb h
  obtain ⟨bytes, h1, h2⟩ := RleObject.load_serialize hA old _ hw rest
  obtain ⟨P, h3, h4⟩ := RleObject.reloaded_view hw
  rw [hs] at h3 h4
  exact ⟨bytes, _, _, by rw [hw.view, hs], h1, h2, h3, rfl, rfl, h4.toString, h4.access, h4.rank, h4.select, h4.runOf, h4.runOfPosition, h4.runAt,
    h4.runRange, h4.breakRange, h4.breakInRuns, h4.closestRunBreak⟩

example : ((RleString.build [2,2,5,1,1,1,2] 2).bind (fun s => ((RleObject.ofString s).serialize atomPrims).bind (fun bytes =>
    (RleObject.empty.load atomPrims (bytes ++ [.size 3])).bind (fun q => q.1.view.bind (fun t => (t.breakInRuns 1 4).map (fun l => (l.length, q.2))))))) =
    some (3, [.size 3]) := by decide +kernel

/-- **C46**, rle_string without content: a default-constructed rle_string has size 0, writes its three numbers, and any rle_string that reads
    them has size 0 from then on. Read back into a default-constructed one it is as before. -/
theorem c46_legacy_empty (A : Prims α) (hA : A.Faithful) (old : RleObject) (rest : List α) :
    ∃ bytes y, RleObject.empty.n = 0 ∧ RleObject.empty.serialize A = some bytes ∧ bytes = A.encSize 0 ++ A.encSize 0 ++ A.encSize 0 ∧
      old.load A (bytes ++ rest) = some (y, rest) ∧ y.n = 0 ∧ RleObject.empty.load A (bytes ++ rest) = some (RleObject.empty, rest) := by
  have e : ∀ old : RleObject, old.load A (A.encSize 0 ++ A.encSize 0 ++ A.encSize 0 ++ rest) = some ({ old with n := 0, R := 0, B := 0 }, rest) := by
    intro old
    simp [RleObject.load, hA.size]
  exact ⟨_, _, rfl, rfl, rfl, e old, rfl, e _⟩

example : RleObject.empty.serialize atomPrims = some [.size 0, .size 0, .size 0] := by decide +kernel

/-! ### The streams of the indexes -/

/-- the vectors of a psi function have the default density -/
def Dens64 (P : PsiCoreRLE) : Prop := ∀ q ∈ P.parts, q.1.dens = 64

theorem psiItems_dens {b : BaseItems} {p : PsiItems} (h : constructPsiItems b = some p) : Dens64 p.core := by
  unfold constructPsiItems at h
  simp only [Option.bind_eq_bind, Option.bind_eq_some_iff, Option.pure_def, Option.some.injEq] at h
  obtain ⟨_, -, _, -, core, h, rfl⟩ := h
  exact build_dens h

theorem rcsaBwt_dens {T sa : List Nat} {I : RCSA} (h : RCSABwt.build T sa = some I) : Dens64 I.psi := by
  unfold RCSABwt.build at h
  simp only [Option.bind_eq_bind, Option.bind_eq_some_iff, Option.pure_def, Option.some.injEq] at h
  obtain ⟨_, -, _, h, _, -, _, -, _, -, rfl⟩ := h
  exact psiItems_dens h

theorem rcsaPsi_dens {T sa : List Nat} {I : RCSA} (h : RCSAPsi.build T sa = some I) : Dens64 I.psi := by
  unfold RCSAPsi.build at h
  simp only [Option.bind_eq_bind, Option.bind_eq_some_iff, Option.pure_def, Option.some.injEq] at h
  obtain ⟨_, -, _, h, _, -, _, -, _, -, _, -, _, -, rfl⟩ := h
  exact psiItems_dens h

theorem commons_dens {T sa : List Nat} {s : Nat} {k} (h : SrCSA.commons T sa s = some k) : Dens64 k.psi.core := by
  unfold SrCSA.commons at h
  simp only [Option.bind_eq_bind, Option.bind_eq_some_iff, Option.pure_def, Option.some.injEq] at h
  obtain ⟨_, -, _, h, _, -, _, -, _, -, _, -, rfl⟩ := h
  exact psiItems_dens h

theorem srCSA_dens {T sa : List Nat} {s : Nat} {I : SrCSA} (h : SrCSA.build T sa s = some I) : Dens64 I.psi := by
  unfold SrCSA.build at h
  simp only [Option.bind_eq_bind, Option.bind_eq_some_iff, Option.pure_def, Option.some.injEq] at h
  obtain ⟨_, h, _, -, _, -, _, -, _, -, rfl⟩ := h
  exact commons_dens h

theorem srCSASlim_dens {T sa : List Nat} {s : Nat} {I : SrCSA} (h : SrCSA.buildSlim T sa s = some I) : Dens64 I.psi := by
  unfold SrCSA.buildSlim at h
  simp only [Option.bind_eq_bind, Option.bind_eq_some_iff, Option.pure_def, Option.some.injEq] at h
  obtain ⟨_, h, _, -, _, -, _, -, _, -, _, -, _, -, _, -, rfl⟩ := h
  exact commons_dens h

theorem commonsPsi_dens {T sa : List Nat} {s : Nat} {k} (h : SrCSA.commonsPsi T sa s = some k) : Dens64 k.csa.psi := by
  unfold SrCSA.commonsPsi at h
  simp only [Option.bind_eq_bind, Option.bind_eq_some_iff, Option.pure_def, Option.some.injEq] at h
  obtain ⟨_, -, _, h, _, -, _, -, _, -, _, -, _, -, _, -, _, -, _, -, _, -, _, -, rfl⟩ := h
  exact psiItems_dens h

theorem partsOf_dens {t : IndexType} {T sa : List Nat} {s : Nat} {p : Parts} (h : partsOf t T sa s = some p) : Item.HasDens 64 p.nav := by
  cases t <;> simp only [partsOf, Option.map_eq_some_iff] at h <;> obtain ⟨I, h, rfl⟩ := h
  case rIndex => trivial
  case srIndex => trivial
  case srIndexValidMark => trivial
  case srIndexValidArea => trivial
  case rcsaWithBWTRun => exact rcsaBwt_dens h
  case rcsaWithPsiRun => exact rcsaPsi_dens h
  case srCSA => exact srCSA_dens h
  case srCSASlim => exact srCSASlim_dens h
  case srCSAWithPsiRun =>
    unfold SrCSA.buildPsi at h
    simp only [Option.bind_eq_bind, Option.bind_eq_some_iff, Option.pure_def, Option.some.injEq] at h
    obtain ⟨_, h, rfl⟩ := h
    exact commonsPsi_dens h
  case srCSAValidMark | srCSAValidArea =>
    unfold SrCSAValid.build at h
    simp only [Option.bind_eq_bind, Option.bind_eq_some_iff, Option.pure_def, Option.some.injEq] at h
    obtain ⟨_, h, _, -, _, -, _, -, rfl⟩ := h
    exact srCSA_dens h
  case srCSASlimValidMark | srCSASlimValidArea =>
    unfold SrCSAValid.buildSlim at h
    simp only [Option.bind_eq_bind, Option.bind_eq_some_iff, Option.pure_def, Option.some.injEq] at h
    obtain ⟨_, h, _, -, _, -, _, -, rfl⟩ := h
    exact srCSASlim_dens h
  case psiValidMark | psiValidArea =>
    unfold SrCSAValid.buildPsi at h
    simp only [Option.bind_eq_bind, Option.bind_eq_some_iff, Option.pure_def, Option.some.injEq] at h
    obtain ⟨_, h, _, -, rfl⟩ := h
    exact commonsPsi_dens h

theorem itemOf_dens {b : BvKind} {p : Parts} (h : Item.HasDens 64 p.nav) (w : Write) : Item.HasDens 64 (itemOf b p w) := by
  obtain ⟨sl, pt, ty⟩ := w
  cases sl <;> cases pt <;> cases b <;> first | exact h | trivial

/-- **C46**, indexes (partial, as C30 is). The streams of all the indexes, written down to the values of sdsl by the serialize functions of RLEString,
    PsiCoreRLE, enc_vector and std::pair: for every index type, text and rate, the constructed index writes a stream from which a fresh object
    constructed with the same rate reads exactly what was written and then gives the same, exact, answers.
    Missing: as in C30, plain bit vectors for the samples of SrCSAValidMark and SrCSAValidArea over SrCSA. -/
theorem c46_index_partial (A : Prims α) (hA : A.Faithful) (t : IndexType) (b : BvKind) (T sa : List Nat) (hT : IsText T) (hsa : IsSA T sa)
    (hn : T.length < 2^64) (s : Nat) (C : Cache) (hC : C.HasIndex t b T sa s)
    (hb : b = .sd ∨ (t.overPositions && t.withMarks) = false) (rest : List α) :
    ∃ q I S I' S', Exact q.count q.locate T sa (if t.backward then List.reverse else id) ∧
      (Object.fresh t b (rateArg t s)).loadCache (codecOf A 64) [] C = some (I, S) ∧ I.queries S = some q ∧
      (Object.fresh t b (rateArg t s)).loadStream (codecOf A 64) [] (I.serialize (codecOf A 64) S ++ rest) = some (I', S', rest) ∧
      I'.queries S' = some q := by
  obtain ⟨p, hp, hC⟩ := hC
  obtain ⟨q, hq, he⟩ := buildIndex_exact t hT hsa hn s
  obtain ⟨I, S, h1, -, h2, h3, h4, -, hadd, h5, -⟩ := load_constructed (codecOf A 64) hp hC (S := []) (fun _ _ => Or.inl rfl)
  rw [hq] at h2
  subst h3; subst h4
  have hV : ∀ k x, S.find k = some x → Item.HasDens 64 x := by
    intro k x hx
    rcases hadd k x hx with h | ⟨w, -, -, rfl⟩
    · cases h
    · exact itemOf_dens (partsOf_dens hp) w
  obtain ⟨I', S', h6, -, -, h7⟩ := stream_restores (codecOf_faithful hA 64) (loadCache_loaded h1) hV h2 (rateArg I.type s)
    (by cases h : I.type.sampled with
        | true => right; right; rw [h5 h, rateArg, h, if_pos rfl]
        | false => right; left; exact h) hb (S₀ := []) (fun _ _ => rfl) rest
  exact ⟨q, I, S, I', S', he, h1, h2, h6, h7⟩

-- the stream of an SrCSAValidArea at rate 2, read back
example : ((do
    let (I, S) ← (Object.fresh .srCSAValidArea .sd (some 2)).loadCache (codecOf atomPrims 64) [] (indexCache .srCSAValidArea .sd exText exSA 2)
    let bytes := I.serialize (codecOf atomPrims 64) S
    let (I', S', _) ← (Object.fresh .srCSAValidArea .sd none).loadStream (codecOf atomPrims 64) [] bytes
    let q ← I'.queries S'
    q.locate [2]) : Option (List Nat)) = some [7, 9, 4, 1] := by decide +kernel

end Sri
