import Verif.Proofs.IntClasses
import Verif.Proofs.LF
import Verif.Props.RIndex
import Verif.Props.Bwt
import Verif.Props.SrCSA
import Verif.Model.Text
/-! # C58: texts of integers -/
namespace Sri
set_option autoImplicit false

theorem constructBWT_eq_bwtOf (T sa : List Nat) : constructBWT T sa = bwtOf T sa := rfl

/-- **C58** violated in the construction: with an integer alphabet constructBWTRuns reports one run, from the first to the last entry, for every
    text; but the BWT of every text other than the empty one has at least two runs. -/
theorem c58_runs_violation (T sa : List Nat) (hT : IsText T) (hsa : IsSA T sa) (hn : 2 ≤ T.length) :
    constructBWTRunsRef (bwtOf T sa) sa = some
      { first := [0], firstTextPos := [prevPos T (sa.getD 0 0)],
        last := [T.length - 1], lastTextPos := [prevPos T (sa.getD (T.length - 1) 0)] } ∧
    2 ≤ runsBefore (bwtOf T sa) T.length := by
  have hl : (bwtOf T sa).length = T.length := by rw [bwtOf, List.length_map, hsa.length]
  have hpv : ∀ j, j < T.length → bwtTextPos T.length (sa.getD j 0) = prevPos T (sa.getD j 0) := fun j hj => bwtTextPos_eq hsa hj
  constructor
  · rw [constructBWTRunsRef_eq (by omega) (by rw [hl, hsa.length]), hl, hpv _ (by omega), hpv _ (by omega)]
  · by_contra hcon
    have key : ∀ j, j < T.length → bwtAt T sa j = bwtAt T sa 0 := by
      intro j
      induction j with
      | zero => intro _; rfl
      | succ j ih =>
        intro hj
        rw [← ih (by omega)]
        by_contra hne
        apply hcon
        have hst : runStartsAt (bwtOf T sa) (j + 1) = true := by
          rw [runStartsAt]
          have e : ∀ i, i < T.length → (bwtOf T sa)[i]? = some (bwtAt T sa i) := by
            intro i hi
            have hi' : i < sa.length := by rw [hsa.length]; exact hi
            rw [bwtOf, List.getElem?_map, List.getElem?_eq_getElem hi', bwtAt, saAt, List.getD_eq_getElem?_getD, List.getElem?_eq_getElem hi']
            rfl
          rw [e _ hj, Nat.add_sub_cancel, e _ (by omega)]
          simp [hne]
        have hst0 : runStartsAt (bwtOf T sa) 0 = true := by simp [runStartsAt]
        have : [0, j + 1].Sublist ((List.range T.length).filter (runStartsAt (bwtOf T sa))) := by
          apply List.sublist_of_subperm_of_pairwise (r := (· < ·))
          · apply List.subperm_of_subset (by simp)
            intro i hi
            simp only [List.mem_cons, List.not_mem_nil, or_false] at hi
            rcases hi with rfl | rfl
            · exact List.mem_filter.2 ⟨List.mem_range.2 (by omega), hst0⟩
            · exact List.mem_filter.2 ⟨List.mem_range.2 hj, hst⟩
          · simp
          · exact List.pairwise_lt_range.filter _
        have := this.length_le
        rw [runsBefore]
        simpa using this
    have hz : (0 : Nat) ∈ T := by obtain ⟨u, hu, -⟩ := hT; rw [hu]; simp
    obtain ⟨u, hu, hu0⟩ := hT
    have hne : u ≠ [] := by rintro rfl; rw [hu] at hn; simp at hn
    obtain ⟨c, hc⟩ := List.exists_mem_of_ne_nil u hne
    obtain ⟨i, hi, hi0⟩ := exists_bwtAt hsa hz
    obtain ⟨j, hj, hjc⟩ := exists_bwtAt hsa (show c ∈ T by rw [hu]; simp [hc])
    rw [key _ hi] at hi0
    rw [key _ hj] at hjc
    exact hu0 c hc (by rw [← hjc, hi0])

example : constructBWTRunsRef (bwtOf exText exSA) exSA = some { first := [0], firstTextPos := [10], last := [11], lastTextPos := [1] } := by decide
example : runsBefore (bwtOf exText exSA) exText.length = 6 := by decide

/-- the classes whose queries go backwards from the last position of the range, with RCSAWithPsiRun -/
def intLocateClasses : List IndexType := [.rIndex, .srIndex, .srIndexValidMark, .srIndexValidArea, .rcsaWithPsiRun]

theorem throughChar_one {c : Nat} (h : c < 256) : throughChar [c] = [c] := by
  simp [throughChar, Nat.mod_eq_of_lt h]

/-- what an index over a text of integers with at most 256 distinct ones is made of -/
theorem buildIndexRef_inv {t : IndexType} {T sa : List Nat} {s : Nat} {Q : Queries} (hT : IsText T) (hsa : IsSA T sa) (hd : T.dedup.length ≤ 256)
    (hQ : buildIndexRef t T sa s = some Q) :
    ∃ b T' Q', BaseOK T sa T' b ∧ indexOfBase t { b with runs := oneRun T' sa } s = some Q' ∧
      (∀ P, Q.count P = Q'.count (throughChar P)) ∧ ∀ P, Q.locate P = Q'.locate (throughChar P) := by
  obtain ⟨b, T', -, ok, hb⟩ := baseRef_ok hT hsa hd
  simp only [buildIndexRef, hb, Option.bind_eq_bind, Option.bind_some, Option.bind_eq_some_iff, Option.pure_def, Option.some_inj] at hQ
  obtain ⟨Q', hQ', rfl⟩ := hQ
  exact ⟨b, T', Q', ok, hQ', fun _ => rfl, fun _ => rfl⟩

/-- **C58** violated by the index: over every text of integers, with each of these classes, no one-symbol pattern of the text is located
    correctly; the query reads outside the samples or reports a position of another symbol. -/
theorem c58_locate_violation (t : IndexType) (ht : t ∈ intLocateClasses) (T sa : List Nat) (s : Nat) (hT : IsText T) (hsa : IsSA T sa)
    (hn : T.length < 2 ^ 64) (hd : T.dedup.length ≤ 256) (Q : Queries) (hQ : buildIndexRef t T sa s = some Q) :
    ∀ c ∈ T, c ≠ 0 → c < 256 → ¬ ∃ l, Q.locate [c] = some l ∧ l.Perm (occurrences [c] T) := by
  obtain ⟨b, T', Q', ok, hQ', -, hloc⟩ := buildIndexRef_inv hT hsa hd hQ
  have hc := ok.compact
  rintro c hcT hc0 hc256 ⟨l, hl, hperm⟩
  rw [hloc, throughChar_one hc256] at hl
  by_cases hp : t = .rcsaWithPsiRun
  · subst hp
    rw [rcsaPsi_one ok hn s hQ' (hc.mem c hcT) (hc.pos c hcT hc0)] at hl
    cases hl
  · obtain ⟨p, hp, hne⟩ := back_one ok s (by simpa [intLocateClasses, hp] using ht) hQ' (hc.mem c hcT) (hc.pos c hcT hc0) hl
    have hocc : OccursAt [c] T p := by
      have := hperm.mem_iff.1 hp
      rw [occurrences, List.mem_filter] at this
      simpa using this.2
    exact hne (occursAt_cons.1 ((hc.occ [c] (by simpa using hcT) p).2 hocc)).2.1

example : IsText exText ∧ IsSA exText exSA ∧ exText.length < 2 ^ 64 ∧ exText.dedup.length ≤ 256 ∧ (2 : Nat) ∈ exText :=
  ⟨exText_isText, exSA_isSA, by decide, by decide, by decide⟩
-- every one of them is built; reading outside the samples
example : intLocateClasses.map (fun t => (buildIndexRef t exText exSA 2).map (fun Q => [Q.locate [1], Q.locate [2], Q.locate [3], Q.locate [1, 2]])) =
    List.replicate 5 (some [none, none, none, none]) := by decide +kernel
-- an answer, but a wrong one: in the text `1 0` the pattern `1` is at position 0
example : (buildIndexRef .rIndex [1, 0] [1, 0] 1).map (fun Q => Q.locate [1]) = some (some [1]) := by decide

/-- **C58** violated by RCSAWithBWTRun: over every text of integers it locates no one-symbol pattern other than the last symbol of the text. -/
theorem c58_rcsa_violation (T sa : List Nat) (s : Nat) (hT : IsText T) (hsa : IsSA T sa)
    (hn : T.length < 2 ^ 64) (hd : T.dedup.length ≤ 256) (Q : Queries) (hQ : buildIndexRef .rcsaWithBWTRun T sa s = some Q) :
    ∀ c ∈ T, c ≠ 0 → c < 256 → T[T.length - 2]? ≠ some c → Q.locate [c] = none := by
  obtain ⟨b, T', Q', ok, hQ', -, hloc⟩ := buildIndexRef_inv hT hsa hd hQ
  have hc := ok.compact
  intro c hcT hc0 hc256 hlast
  rw [hloc, throughChar_one hc256]
  have h2 : 2 ≤ T.length := by
    by_contra hcon
    obtain ⟨u, rfl, hu⟩ := hT
    rw [List.length_append, List.length_singleton] at hcon
    have : u = [] := List.length_eq_zero_iff.1 (by omega)
    subst this
    simp at hcT
    exact hc0 hcT
  refine rcsaBwt_one ok hn s hQ' (hc.mem c hcT) (hc.pos c hcT hc0) ?_
  intro he
  have hlen := hc.len
  have e1 : bwtAt T' sa 0 = tx T' (T'.length - 2) := by
    rw [bwtAt, sa_zero hc.text hc.isSA]
    congr 1
    rw [show T'.length - 1 + T'.length - 1 = T'.length - 2 + T'.length by omega, Nat.add_mod_right, Nat.mod_eq_of_lt (by omega)]
  have e2 : T'[T.length - 2]? = some (b.alphabet.char2comp c) := by
    rw [he, e1, tx, List.getD_eq_getElem?_getD, List.getElem?_eq_getElem (show T'.length - 2 < T'.length by omega), Option.getD_some]
    simp only [hlen]
    rw [List.getElem?_eq_getElem (by omega)]
  exact hlast (occursAt_single.1 ((hc.occ [c] (by simpa using hcT) _).1 (occursAt_single.2 e2)))

-- the last symbol of `exText` is 3: Locate of 3 goes wrong as well, in the rest of the range
example : (buildIndexRef .rcsaWithBWTRun exText exSA 2).map (fun Q => [Q.locate [1], Q.locate [2], Q.locate [3]]) = some [none, none, none] := by
  decide +kernel

/-- **C58** violated by SrCSASlim and its variants with validity: over every text of integers the construction writes outside a bit vector
    of one bit. -/
theorem c58_slim_violation (t : IndexType) (ht : t ∈ [IndexType.srCSASlim, .srCSASlimValidMark, .srCSASlimValidArea]) (T sa : List Nat) (s : Nat)
    (hT : IsText T) (hsa : IsSA T sa) (hn : T.length < 2 ^ 64) (h2 : 2 ≤ T.length) (hd : T.dedup.length ≤ 256) :
    buildIndexRef t T sa s = none := by
  cases hQ : buildIndexRef t T sa s with
  | none => rfl
  | some Q =>
    obtain ⟨b, T', Q', ok, hQ', -⟩ := buildIndexRef_inv hT hsa hd hQ
    rw [slim_one ok hn h2 s ht] at hQ'
    cases hQ'

example : IsText exText ∧ IsSA exText exSA ∧ 2 ≤ exText.length := ⟨exText_isText, exSA_isSA, by decide⟩

/-- **C58** violated by the other sub-sampled classes: they are built and count, and do not locate, over a text and patterns of it. (Over some
    texts, such as `1 0`, they happen to locate, so there is no statement about every text.) -/
theorem c58_subsampled_violation : ∃ T sa : List Nat, IsText T ∧ IsSA T sa ∧
    ∀ t ∈ [IndexType.srCSA, .srCSAValidMark, .srCSAValidArea, .srCSAWithPsiRun, .psiValidMark, .psiValidArea],
      ∃ Q, buildIndexRef t T sa 2 = some Q ∧ Q.locate [1] = none ∧ Q.locate [1, 2] = none := by
  refine ⟨exText, exSA, exText_isText, exSA_isSA, ?_⟩
  have h : ∀ t ∈ [IndexType.srCSA, .srCSAValidMark, .srCSAValidArea, .srCSAWithPsiRun, .psiValidMark, .psiValidArea],
      (buildIndexRef t exText exSA 2).map (fun Q => (Q.locate [1], Q.locate [1, 2])) = some (none, none) := by decide +kernel
  intro t ht
  obtain ⟨Q, hQ, he⟩ := Option.map_eq_some_iff.1 (h t ht)
  exact ⟨Q, hQ, (Prod.mk.inj he).1, (Prod.mk.inj he).2⟩

/-- **C58** violated by the patterns: every class takes the symbols of a pattern as `char`s, so over every text no integer of the text above 255
    is counted as it should. -/
theorem c58_symbols_violation (t : IndexType) (T sa : List Nat) (s : Nat) (hT : IsText T) (hsa : IsSA T sa)
    (hn : T.length < 2 ^ 64) (hd : T.dedup.length ≤ 256) (Q : Queries) (hQ : buildIndexRef t T sa s = some Q) :
    ∀ c ∈ T, 256 ≤ c → ∃ a b, Q.count [c] = some (a, b) ∧ ¬ IsInterval [c] T sa a b := by
  obtain ⟨b, T', Q', ok, hQ', hcount, -⟩ := buildIndexRef_inv hT hsa hd hQ
  intro c hcT hc
  have := Nat.mod_lt c (show 0 < 256 by omega)
  rw [hcount]
  exact (searches_ofBase ok hn _ t s hQ').other ok.compact hcT (by omega) (show c % 256 ≠ c by omega)

-- 300 occurs at two positions; what is looked for is 300 - 256 = 44, which does not occur, and the answer is the range of the terminator
example : (buildIndexRef .rIndex [1000, 300, 1000, 300, 0] (suffixArray [1000, 300, 1000, 300, 0]) 1).map (fun Q => Q.count [300]) =
    some (some (0, 1)) := by decide +kernel

/-- **C58**, what holds: with at most 256 distinct integers Count of every class that is built is exact for every pattern over the text whose
    integers are below 256. Missing: Locate (`c58_locate_violation`, `c58_rcsa_violation`, `c58_subsampled_violation`), the construction of
    SrCSASlim (`c58_slim_violation`), integers above 255 in patterns (`c58_symbols_violation`) and larger alphabets
    (`c58_large_alphabet_violation`), where it is false. -/
theorem c58_count_partial (t : IndexType) (T sa : List Nat) (s : Nat) (hT : IsText T) (hsa : IsSA T sa)
    (hn : T.length < 2 ^ 64) (hd : T.dedup.length ≤ 256) (Q : Queries) (hQ : buildIndexRef t T sa s = some Q) :
    ∀ P, IsPattern P T → (∀ c ∈ P, c < 256) → ∃ a b, Q.count P = some (a, b) ∧ IsInterval P T sa a b := by
  obtain ⟨b, T', Q', ok, hQ', hcount, -⟩ := buildIndexRef_inv hT hsa hd hQ
  intro P hP h256
  have hid : throughChar P = P := by
    rw [throughChar]
    conv_rhs => rw [← List.map_id P]
    exact List.map_congr_left (fun c h => Nat.mod_eq_of_lt (h256 c h))
  rw [hcount, hid]
  exact (searches_ofBase ok hn _ t s hQ').exact ok.compact hP.2

/-- and RIndex and SrIndex are built over every such text -/
theorem c58_built_partial (t : IndexType) (ht : t ∈ [IndexType.rIndex, .srIndex]) (T sa : List Nat) (s : Nat) (hT : IsText T) (hsa : IsSA T sa)
    (hd : T.dedup.length ≤ 256) : ∃ Q, buildIndexRef t T sa s = some Q := by
  obtain ⟨b, T', -, ok, hb⟩ := baseRef_ok hT hsa hd
  simp only [List.mem_cons, List.not_mem_nil, or_false] at ht
  rcases ht with rfl | rfl
  · have h1 : pv T' sa 0 < b.n := by rw [ok.n]; exact Nat.mod_lt _ ok.compact.text.pos
    have h2 := bits_one h1 false
    refine ⟨_, by
      simp only [buildIndexRef, hb, indexOfBase, RIndex.ofBase, h2, sigma_C ok, Option.bind_eq_bind, Option.bind_some, Option.pure_def, Option.map_some]
      rfl⟩
  · refine ⟨_, by
      simp only [buildIndexRef, hb, indexOfBase, SrIndex.ofBase_one ok, Option.bind_eq_bind, Option.bind_some, Option.pure_def, Option.map_some]
      rfl⟩

-- every class that is built over `exText`; and a text with integers above 255, searched for one below
example : [IndexType.rIndex, .srIndex, .srIndexValidMark, .srIndexValidArea, .rcsaWithBWTRun, .rcsaWithPsiRun, .srCSA, .srCSAValidMark,
    .srCSAValidArea, .srCSAWithPsiRun, .psiValidMark, .psiValidArea].map (fun t => (buildIndexRef t exText exSA 2).map (fun Q => Q.count [1, 2])) =
    List.replicate 12 (some (some (1, 5))) := by decide +kernel
example : (buildIndexRef .srIndex [7, 1000, 7, 1000, 0] (suffixArray [7, 1000, 7, 1000, 0]) 1).map (fun Q => Q.count [7]) =
    some (some (1, 3)) := by decide +kernel

/-- **C58** violated, more than 256 distinct integers: the run-length BWT that every index over the text shares does not hold the BWT; some entry
    is never returned. -/
theorem c58_large_alphabet_violation (T sa : List Nat) (hT : IsText T) (hsa : IsSA T sa) (hd : 256 < T.dedup.length) (b : BaseItems)
    (hb : constructBaseRef T sa = some b) :
    ∃ i, i < T.length ∧ b.bwtRle.access i ≠ some (b.alphabet.char2comp ((bwtOf T sa).getD i 0)) := by
  have hl : (bwtOf T sa).length = T.length := by rw [bwtOf, List.length_map, hsa.length]
  have hc := compact_build hT hsa
  have hs := sigma_dedup hT hsa
  unfold constructBaseRef at hb
  simp only [Option.bind_eq_bind, Option.bind_eq_some_iff, Option.pure_def, Option.some_inj] at hb
  obtain ⟨runs, -, rle, hrle, rfl⟩ := hb
  obtain ⟨d, hdT, hde⟩ := List.mem_map.1 (hc.full 256 (by omega))
  obtain ⟨i, hi, hib⟩ := exists_bwtAt hsa hdT
  have hbi : (bwtOf T sa)[i]? = some d := by
    have hi' : i < sa.length := by rw [hsa.length]; exact hi
    rw [bwtOf, List.getElem?_map, List.getElem?_eq_getElem hi', ← hib, bwtAt, saAt, List.getD_eq_getElem?_getD, List.getElem?_eq_getElem hi']
    rfl
  refine ⟨i, hi, ?_⟩
  dsimp only
  rw [List.getD_eq_getElem?_getD, hbi, Option.getD_some, hde]
  intro ha
  have hm := RLEString.access_mem ha
  simp only [RLEString.buildByte, Option.bind_eq_bind, Option.bind_eq_some_iff, Option.pure_def, Option.some_inj] at hrle
  obtain ⟨S', -, rfl⟩ := hrle
  obtain ⟨e, -, he⟩ := List.mem_map.1 hm
  have := Nat.mod_lt e (show 0 < 256 by omega)
  omega

end Sri
