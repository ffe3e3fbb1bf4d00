import Verif.Proofs.WordObjects
import Verif.Props.Words
import Verif.Props.ByteCount
/-! # C73: from the data file to the answers

The stages of a program that uses the library, one after the other: the data file is read, an index is constructed over a cache that earlier
constructions and crashes have left behind, the index is written to a stream, a new process reads it back, and answers queries with 64-bit
arithmetic. -/
namespace Sri
set_option autoImplicit false

theorem words_exact {bytes : List Nat} (h0 : ∀ c ∈ bytes, c ≠ 0) (t : IndexType) (hn : bytes.length + 1 < 2 ^ 60)
    (hint : t.cutsRanges = true → bytes.length + 1 < 2 ^ 31 - 1) (s : Nat) (hs : s < 2 ^ 63) :
    ∃ m, buildIndex64 t (bytes ++ [0]) (suffixArray (bytes ++ [0])) s = some m ∧ ∀ X, X ≠ [] → (∀ c ∈ X, c ∈ bytes) →
      ∃ i j l, m.count X = some (i, j) ∧ m.locate X = some l ∧ i ≤ j ∧ j - i = (occurrences X bytes).length ∧ l.Perm (occurrences X bytes) := by
  have hT : IsText (bytes ++ [0]) := ⟨bytes, rfl, h0⟩
  have hl : (bytes ++ [0]).length = bytes.length + 1 := by simp
  obtain ⟨q, m, h1, h2, h3⟩ := c71_same t _ _ hT (suffixArray_isSA _) (by rw [hl]; exact hn) (by rw [hl]; exact hint) s hs
  obtain ⟨q', e1, e2⟩ := buildIndex_exact t hT (suffixArray_isSA _) (by rw [hl]; omega) s
  rw [h1, Option.some_inj] at e1
  subst e1
  have he := h3.exact e2
  refine ⟨m, h2, fun X hX hXc => ?_⟩
  have hpat : IsPattern X (bytes ++ [0]) := ⟨hX, fun c hc => ⟨by simp [hXc c hc], h0 c (hXc c hc)⟩⟩
  obtain ⟨a, b, hc, hi, hp, hlo⟩ := he X hpat
  rw [occurrences_terminated (b := bytes) hX (fun c hc => h0 c (hXc c hc))] at hp
  refine ⟨a, b, _, hc, hlo, hi.1, ?_, (order_perm _ _).trans hp⟩
  rw [← hp.length_eq, saSlice_length hi.2.1]

/-- **C73** (partial), with any template argument for the bit vector: for every data file without a zero byte, every class, bit vector and rate, and every history of constructions, crashes that
    leave a clean directory and restarts before: construct gives an index object; serialize returns the number of bytes it writes; a fresh object
    that loads them in another process reads exactly those bytes, whatever follows them; and both objects, computing with 64-bit words, count
    and locate every pattern exactly.
    The bounds: fewer than 2^60 symbols, fewer than 2^31 - 1 in the classes that cut ranges at sampled positions, a rate below 2^63.
    Missing, as in C30: the plain bit vector for the samples of SrCSAValidMark and SrCSAValidArea over SrCSA, whose streams cannot be read. -/
theorem c73_whole_program_partial {α : Type} (A : CountingPrims α) (hA : A.Reports) (hF : A.toPrims.Faithful)
    (bytes : List Nat) (h0 : ∀ c ∈ bytes, c ≠ 0) (P : Process) (hP : CacheHistory bytes CleanDisk (Process.fresh Disk.empty) P)
    (t : IndexType) (b : BvKind) (s : Nat) (hs : s < 2 ^ 63) (hn : bytes.length + 1 < 2 ^ 60)
    (hint : t.cutsRanges = true → bytes.length + 1 < 2 ^ 31 - 1) (hb : b = .sd ∨ (t.overPositions && t.withMarks) = false) (rest : List α) :
    ∃ P' I S o I' S' m,
      (Object.fresh t b (rateArg t s)).construct (codecOf A.toPrims 64) bytes [] P = some (P', some (I, S)) ∧
      I.serializeC A true S = o ∧ o.ret = o.bytes.length ∧
      (Object.fresh t b (rateArg t s)).loadStream (codecOf A.toPrims 64) [] (o.bytes ++ rest) = some (I', S', rest) ∧
      I.queries64 S = some m ∧ I'.queries64 S' = some m ∧
      ∀ X, X ≠ [] → (∀ c ∈ X, c ∈ bytes) → ∃ i j l, m.count X = some (i, j) ∧ m.locate X = some l ∧ i ≤ j ∧
        j - i = (occurrences X bytes).length ∧ l.Perm (occurrences X bytes) := by
  obtain ⟨P', I, S, p, h1, hp, h2, rfl, rfl, h5⟩ := construct_over (codecOf A.toPrims 64) bytes h0 (by omega) P hP t b s
  have hwf := (partsOf_ok hp).1
  obtain ⟨I', S', h6, h7, h8, h9, h10⟩ := stream_over (codecOf_faithful hF 64) h2 hwf (fun w _ => itemOf_dens (partsOf_dens hp) w) (rateArg I.type s)
    (by cases h : I.type.sampled with
        | true => right; right; rw [h5 h, rateArg, h, if_pos rfl]
        | false => right; left; exact h) hb rest
  obtain ⟨m, hm, hex⟩ := words_exact h0 I.type hn hint (if I.type.sampled then s else 1) (by split <;> omega)
  obtain ⟨e1, e2⟩ := c57_index A hA 64 I S
  refine ⟨P', I, S, _, I', S', m, h1, rfl, ?_, ?_, ?_, ?_, hex⟩
  · rw [e2, e1]
  · rw [e1]; exact h6
  · rw [← hm]
    exact (h2.words hp (fun h => by rw [h5 h, if_pos h])).2
  · rw [← hm, ← h8]
    rw [← h8] at hp
    refine (h7.words hp (fun h => ?_)).2
    rw [h8] at h ⊢
    rw [h10 h, h5 h, if_pos h]

/-- **C73**: with the default template arguments, nothing is missing. For every data file without a zero byte, every class and rate, and every
    history of constructions, crashes that leave a clean directory and restarts before: construct gives an index object; serialize returns the
    number of bytes it writes; a fresh object that loads them in another process reads exactly those bytes, whatever follows them; and both
    objects, computing with 64-bit words, count and locate every pattern exactly. -/
theorem c73_whole_program {α : Type} (A : CountingPrims α) (hA : A.Reports) (hF : A.toPrims.Faithful)
    (bytes : List Nat) (h0 : ∀ c ∈ bytes, c ≠ 0) (P : Process) (hP : CacheHistory bytes CleanDisk (Process.fresh Disk.empty) P)
    (t : IndexType) (s : Nat) (hs : s < 2 ^ 63) (hn : bytes.length + 1 < 2 ^ 60)
    (hint : t.cutsRanges = true → bytes.length + 1 < 2 ^ 31 - 1) (rest : List α) :
    ∃ P' I S o I' S' m,
      (Object.fresh t .sd (rateArg t s)).construct (codecOf A.toPrims 64) bytes [] P = some (P', some (I, S)) ∧
      I.serializeC A true S = o ∧ o.ret = o.bytes.length ∧
      (Object.fresh t .sd (rateArg t s)).loadStream (codecOf A.toPrims 64) [] (o.bytes ++ rest) = some (I', S', rest) ∧
      I.queries64 S = some m ∧ I'.queries64 S' = some m ∧
      ∀ X, X ≠ [] → (∀ c ∈ X, c ∈ bytes) → ∃ i j l, m.count X = some (i, j) ∧ m.locate X = some l ∧ i ≤ j ∧
        j - i = (occurrences X bytes).length ∧ l.Perm (occurrences X bytes) :=
  c73_whole_program_partial A hA hF bytes h0 P hP t .sd s hs hn hint (Or.inl rfl) rest

/-- the hypotheses are met: the second index of a directory that another class was constructed in -/
example : ∃ (P P' : Process) (I : Object) (S : Storage) (o : Out Atom) (I' : Object) (S' : Storage) (m : Queries) (i j : Nat) (l : List Nat),
    (Object.fresh .srCSAValidArea .sd (some 2)).construct (codecOf atomPrims 64) [98, 97, 98, 97] [] P = some (P', some (I, S)) ∧
    I.serializeC atomCounting true S = o ∧
    (Object.fresh .srCSAValidArea .sd (some 2)).loadStream (codecOf atomPrims 64) [] (o.bytes ++ [Atom.size 7]) = some (I', S', [Atom.size 7]) ∧
    I'.queries64 S' = some m ∧ m.count [98, 97] = some (i, j) ∧ m.locate [98, 97] = some l ∧ j - i = 2 ∧ l.Perm [0, 2] := by
  obtain ⟨P, I₀, S₀, q₀, -, hP, -⟩ := c68_construct_partial (codecOf atomPrims 64) [98, 97, 98, 97] (by decide) (by decide) _ .start .srIndexValidArea .sd 2
  obtain ⟨P', I, S, o, I', S', m, h1, h2, -, h3, -, h4, h5⟩ := c73_whole_program_partial atomCounting atomCounting_reports atomPrims_faithful
    [98, 97, 98, 97] (by decide) P (.construct _ _ _ .start hP) .srCSAValidArea .sd 2 (by decide) (by decide) (by decide) (Or.inl rfl) [Atom.size 7]
  obtain ⟨i, j, l, x1, x2, -, x3, x4⟩ := h5 [98, 97] (by decide) (by decide)
  exact ⟨P, P', I, S, o, I', S', m, i, j, l, h1, h2, h3, h4, x1, x2, x3.trans (by decide), x4.trans (by decide)⟩

end Sri
