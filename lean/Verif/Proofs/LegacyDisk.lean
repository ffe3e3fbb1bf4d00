import Verif.Proofs.LegacyBuild
/-! # The files of benchmark/bm_build_ri_items.cpp: what a sequence of benchmarks leaves, and the index that is loaded -/
namespace Sri
set_option autoImplicit false

namespace LegacyBuild

/-- the sampled runs for the rate `s` -/
def keptRuns (T sa : List Nat) (s : Nat) : List Nat :=
  (SrIndex.subsampleIdx s (tailPos T sa) (sortIndices (tailPos T sa)) (linksPhiBackward (headPos T sa)).2).getD []

/-- the reports on their marks -/
def reports (T sa : List Nat) (s : Nat) : List (Nat × Nat × Nat) :=
  (computeSubmarksValidity ((sortIndices (headPos T sa)).map (fun i => (headPos T sa).getD i 0)) (sortBy (fun x => x) (subPos T sa (keptRuns T sa s)))).getD []

/-- the file of each key -/
def ideal (T sa : List Nat) : LegacyKey → Option LegacyVal
  | .text => some (.ints T)
  | .sa => some (.ints sa)
  | .bwt => some (.ints (bwtItems T sa).bwt)
  | .bwtRle => (RleString.build (LegacyIndex.seq T sa) 2).map .rle
  | .heads => some (.ints (bwtItems T sa).heads)
  | .headsPos => some (.ints (bwtItems T sa).headsPos)
  | .headsPosVec => some (.ints (bwtItems T sa).headsPosVec)
  | .headsPosBv => some (.bits (bwtItems T sa).headsBv)
  | .headsPosBvSd => some (.bits (bwtItems T sa).headsBv)
  | .tails => some (.ints (bwtItems T sa).tails)
  | .tailsPos => some (.ints (bwtItems T sa).tailsPos)
  | .tailsPosVec => some (.ints (bwtItems T sa).tailsPosVec)
  | .f => some (.ints (bwtItems T sa).f)
  | .tailsSortedVec => some (.ints (sortIndices (tailPos T sa)))
  | .headsSortedVec => some (.ints (sortIndices (headPos T sa)))
  | .tailsByHead => some (.ints (linksPhiBackward (headPos T sa)).2)
  | .tailsSampled s => some (.ints ((keptRuns T sa s).map (fun k => pv T sa (tl T sa k))))
  | .tailsIdxVec s => some (.ints (keptRuns T sa s))
  | .tailsIdxBv s => some (.bits ((List.range (nrun T sa)).map (fun i => decide (i ∈ keptRuns T sa s))))
  | .tailsIdxBvSd s => some (.bits ((List.range (nrun T sa)).map (fun i => decide (i ∈ keptRuns T sa s))))
  | .tailsByHeadS s => some (.ints (headsItems T sa (keptRuns T sa s) (reports T sa s)).order)
  | .markedVec s => some (.bits (headsItems T sa (keptRuns T sa s) (reports T sa s)).marked)
  | .markedBv s => some (.bits (headsItems T sa (keptRuns T sa s) (reports T sa s)).marked)
  | .markedBvSd s => some (.bits (headsItems T sa (keptRuns T sa s) (reports T sa s)).marked)
  | .headsSampledBv s => some (.bits (headsItems T sa (keptRuns T sa s) (reports T sa s)).bv)
  | .headsSampledBvSd s => some (.bits (headsItems T sa (keptRuns T sa s) (reports T sa s)).bv)
  | .areas s => some (.ints (headsItems T sa (keptRuns T sa s) (reports T sa s)).areas)

/-- the files a benchmark needs -/
def Step.needs : Step → List LegacyKey
  | .text => []
  | .sa => [.text]
  | .bwt => [.text, .sa]
  | .rle => [.bwt]
  | .sortTails => [.tailsPosVec]
  | .sortHeads => [.headsPosVec]
  | .tails _ => [.tailsPosVec, .tailsSortedVec, .headsSortedVec]
  | .heads s => [.headsPosVec, .tailsIdxVec s, .headsSortedVec]

/-- the files a benchmark writes -/
def Step.outs : Step → List LegacyKey
  | .text => [.text]
  | .sa => [.sa]
  | .bwt => [.bwt, .heads, .headsPos, .headsPosVec, .headsPosBv, .headsPosBvSd, .tails, .tailsPos, .tailsPosVec, .f]
  | .rle => [.bwtRle]
  | .sortTails => [.tailsSortedVec]
  | .sortHeads => [.headsSortedVec, .tailsByHead]
  | .tails s => [.tailsSampled s, .tailsIdxVec s, .tailsIdxBv s, .tailsIdxBvSd s]
  | .heads s => [.tailsByHeadS s, .markedVec s, .markedBv s, .markedBvSd s, .headsSampledBv s, .headsSampledBvSd s, .areas s]

/-- some files set to their right content -/
def fill (I : LegacyKey → Option LegacyVal) (ks : List LegacyKey) (D : LegacyDisk) : LegacyDisk := fun k => if k ∈ ks then I k else D k

theorem fill_fill (I : LegacyKey → Option LegacyVal) (a b : List LegacyKey) (D : LegacyDisk) : fill I b (fill I a D) = fill I (a ++ b) D := by
  funext k
  unfold fill
  by_cases ha : k ∈ a <;> by_cases hb : k ∈ b <;> simp [ha, hb]

theorem fill_nil (I : LegacyKey → Option LegacyVal) (D : LegacyDisk) : fill I [] D = D := by
  funext k; simp [fill]

theorem store_fill {I : LegacyKey → Option LegacyVal} {k : LegacyKey} {v : LegacyVal} (h : I k = some v) (D : LegacyDisk) : D.store k v = fill I [k] D := by
  funext k'
  unfold fill LegacyDisk.store
  by_cases e : k' = k
  · subst e; simp [h]
  · simp [e]

/-- the data that a file and the text made of it have to satisfy for the program to run through -/
structure Data (T sa : List Nat) : Prop where
  text : IsText T
  isSA : IsSA T sa
  low : ∀ c ∈ T, c < 255
  two : 2 ≤ T.length
  small : T.length < 2 ^ 64

section
variable {T sa : List Nat}

theorem Data.nrun_two (h : Data T sa) : 2 ≤ nrun T sa := by
  have hn := h.text.pos
  have hr := nrun_pos (sa := sa) hn
  obtain ⟨k, hk, e, -, -⟩ := zero_run h.text h.isSA
  by_contra hc
  have h1 : nrun T sa = 1 := by omega
  have h2 := tl_last (sa := sa) hn
  rw [h1] at h2
  have h3 : k = 0 := by omega
  subst h3
  have := h.two
  rw [hd_zero] at e
  simp at h2
  omega

theorem Data.kept (h : Data T sa) (s : Nat) :
    SrIndex.subsampleIdx s (tailPos T sa) (sortIndices (tailPos T sa)) (linksPhiBackward (headPos T sa)).2 = some (keptRuns T sa s) ∧
      (keptRuns T sa s).Pairwise (· < ·) ∧ (∀ k ∈ keptRuns T sa s, k < nrun T sa) ∧
      (∀ q, HeadMark T sa q → ∃ x, x ∈ subPos T sa (keptRuns T sa s) ∧ x ≤ q) ∧
      (∀ q, HeadMark T sa q → ∃ x, x ∈ subPos T sa (keptRuns T sa s) ∧ q ≤ x) := by
  obtain ⟨K, h1, h2, h3, -, -, h6, h7⟩ := SrIndex.subsample h.text h.isSA s
  have : keptRuns T sa s = K := by rw [keptRuns, h1]; rfl
  rw [this]
  exact ⟨h1, h2, h3, h6, h7⟩

/-- positions and items do not depend on whether the text is compacted -/
theorem compact_items {a : Alphabet} {T' : List Nat} (hT : IsText T) (hsa : IsSA T sa) (hc : Compact T sa a T') :
    headPos T' sa = headPos T sa ∧ tailPos T' sa = tailPos T sa ∧ ∀ K, subPos T' sa K = subPos T sa K := by
  have hnr := hc.nrun_eq hT hsa
  refine ⟨?_, ?_, ?_⟩
  · rw [headPos, headPos, hnr]
    apply List.map_congr_left
    intro k _
    rw [hc.pv_eq, hc.hd_eq hT hsa]
  · rw [tailPos, tailPos, hnr]
    apply List.map_congr_left
    intro k _
    rw [hc.pv_eq, hc.tl_eq hT hsa]
  · intro K
    rw [subPos, subPos, hnr]
    apply List.map_congr_left
    intro k _
    rw [hc.pv_eq, hc.hd_eq hT hsa]

/-- the library's index over the same text, with its sampled runs and reports -/
theorem Data.library (h : Data T sa) (s : Nat) :
    ∃ J T', SrIndexValid.build T sa s = some J ∧ SrIndexValid.OK J T' sa (keptRuns T sa s) (reports T sa s) ∧ J.sr.s = s ∧ Compact T sa J.sr.base.alphabet T' ∧
      computeSubmarksValidity ((sortIndices (headPos T sa)).map (fun i => (headPos T sa).getD i 0)) (sortBy (fun x => x) (subPos T sa (keptRuns T sa s))) =
        some (reports T sa s) := by
  obtain ⟨J, T', K, V, h1, h2, h3, h4, h5, h6, -⟩ := SrIndexValid.build_ok' h.text h.isSA s
  obtain ⟨c1, c2, c3⟩ := compact_items h.text h.isSA h4
  rw [c1, c2] at h5
  rw [c1, c3] at h6
  have hK : keptRuns T sa s = K := by rw [keptRuns, h5]; rfl
  have hV : reports T sa s = V := by rw [reports, hK, h6]; rfl
  rw [hK, hV]
  exact ⟨J, T', h1, h2, h3, h4, h6⟩

theorem rounds_const {σ : Type} (f : σ → Option σ) (x : σ) (h : ∀ y, f y = some x) (k : Nat) (y : σ) : Bench.rounds f (k + 1) y = some x := by
  induction k generalizing y with
  | zero => rw [Bench.rounds, h]; rfl
  | succ k ih => rw [Bench.rounds, h]; exact ih x

theorem ints_of {D : LegacyDisk} {k : LegacyKey} {l : List Nat} (h : D k = some (.ints l)) : D.ints k = l := by rw [LegacyDisk.ints, h]

/-- a benchmark whose inputs are right leaves the right files, and no other file changes -/
theorem step_run {bytes : List Nat} (h : Data T sa) (hb : textOf bytes = T) (hsa : suffixArray T = sa) (k : Nat) (t : Step) (D : LegacyDisk)
    (hD : ∀ x ∈ t.needs, D x = ideal T sa x) : t.run bytes k D = some (fill (ideal T sa) t.outs D) := by
  have hn := h.text.pos
  have hr := h.nrun_two
  cases t with
  | text =>
    show some _ = _
    rw [store_fill (I := ideal T sa) (by rw [hb]; rfl)]; rfl
  | sa =>
    have h1 : D .text = some (.ints T) := hD _ (by simp [Step.needs])
    show buildSA D = _
    unfold buildSA
    rw [ints_of h1, h1, hsa]
    simp only [assertC, Option.isSome_some, if_true, Option.bind_eq_bind, Option.bind_some, Option.pure_def]
    rw [store_fill (I := ideal T sa) rfl]; rfl
  | bwt =>
    have h1 : D .text = some (.ints T) := hD _ (by simp [Step.needs])
    have h2 : D .sa = some (.ints sa) := hD _ (by simp [Step.needs])
    show buildBWT k D = _
    unfold buildBWT
    rw [ints_of h1, h2, ints_of h2, bwtRound_eq h.text h.isSA h.low]
    rw [rounds_const (fun _ => Option.map some (some (bwtItems T sa))) (some (bwtItems T sa)) (fun _ => rfl)]
    simp only [assertC, Option.isSome_some, if_true, Option.bind_eq_bind, Option.bind_some, Option.pure_def]
    rw [store_fill (I := ideal T sa) (k := .bwt) rfl, store_fill (I := ideal T sa) (k := .heads) rfl, store_fill (I := ideal T sa) (k := .headsPos) rfl,
      store_fill (I := ideal T sa) (k := .headsPosVec) rfl, store_fill (I := ideal T sa) (k := .headsPosBv) rfl,
      store_fill (I := ideal T sa) (k := .headsPosBvSd) rfl, store_fill (I := ideal T sa) (k := .tails) rfl, store_fill (I := ideal T sa) (k := .tailsPos) rfl,
      store_fill (I := ideal T sa) (k := .tailsPosVec) rfl, store_fill (I := ideal T sa) (k := .f) rfl]
    simp only [fill_fill]
    rfl
  | rle =>
    have h1 : D .bwt = some (.ints (bwtOf T sa)) := hD _ (by simp [Step.needs])
    have hne : RleString.build (LegacyIndex.seq T sa) 2 ≠ none := (c41_build _ _ (by omega) (LegacyIndex.seq_lt h.isSA h.low)).2 ⟨by
      intro e
      have := LegacyIndex.seq_length (T := T) h.isSA
      rw [e] at this
      simp at this
      omega, LegacyIndex.seq_nonzero⟩
    obtain ⟨S, hS⟩ := Option.ne_none_iff_exists'.1 hne
    show buildRLE D = _
    unfold buildRLE
    rw [ints_of h1, h1]
    change Option.bind _ (fun _ => Option.bind (RleString.build (LegacyIndex.seq T sa) 2) _) = _
    rw [hS]
    simp only [assertC, Option.isSome_some, if_true, Option.bind_some]
    change some _ = _
    rw [store_fill (I := ideal T sa) (by rw [ideal, hS]; rfl)]; rfl
  | sortTails =>
    have h1 : D .tailsPosVec = some (.ints (tailPos T sa)) := hD _ (by simp [Step.needs])
    show LegacyBuild.sortTails D = _
    unfold LegacyBuild.sortTails
    rw [ints_of h1, store_fill (I := ideal T sa) rfl]; rfl
  | sortHeads =>
    have h1 : D .headsPosVec = some (.ints (headPos T sa)) := hD _ (by simp [Step.needs])
    show LegacyBuild.sortHeads D = _
    unfold LegacyBuild.sortHeads
    have hl : (sortIndices (headPos T sa)).mapM (fun i => cmod (i + (headPos T sa).length - 1) (headPos T sa).length) = some (linksPhiBackward (headPos T sa)).2 := by
      rw [Sri.mapM_some _ (fun i => (i + (headPos T sa).length - 1) % (headPos T sa).length) _ (fun i _ => by rw [cmod, if_neg (by rw [headPos_length]; omega)])]
      rfl
    have hlt : (IntVec.store (hiBit (headPos T sa).length + 1) (linksPhiBackward (headPos T sa)).2).vals = (linksPhiBackward (headPos T sa)).2 := by
      rw [IntVec.store_hi]
      intro x hx
      obtain ⟨i, -, rfl⟩ := List.mem_map.1 (show x ∈ (sortIndices (headPos T sa)).map (fun k => (k + (headPos T sa).length - 1) % (headPos T sa).length) from hx)
      exact Nat.le_of_lt (Nat.mod_lt _ (by rw [headPos_length]; omega))
    rw [ints_of h1]
    simp only [hl, hlt, Option.bind_eq_bind, Option.bind_some, Option.pure_def]
    rw [store_fill (I := ideal T sa) (k := .headsSortedVec) rfl, store_fill (I := ideal T sa) (k := .tailsByHead) rfl, fill_fill]; rfl
  | tails s =>
    have h1 : D .tailsPosVec = some (.ints (tailPos T sa)) := hD _ (by simp [Step.needs])
    have h2 : D .tailsSortedVec = some (.ints (sortIndices (tailPos T sa))) := hD _ (by simp [Step.needs])
    have h3 : D .headsSortedVec = some (.ints (sortIndices (headPos T sa))) := hD _ (by simp [Step.needs])
    obtain ⟨k1, k2, k3, -, -⟩ := h.kept s
    obtain ⟨q, e1, e2⟩ := tailsRound_eq (tailPos_nodup h.isSA) (by rw [headPos_length, tailPos_length]) (by rw [tailPos_length]; exact hr) k1
    show tailsSampling s D = _
    unfold tailsSampling
    have hsm : (keptRuns T sa s).mapM (fun i => (tailPos T sa)[i]?) = some ((keptRuns T sa s).map (fun k => pv T sa (tl T sa k))) :=
      Sri.mapM_some _ _ _ (fun k hk => tailPos_get (k3 k hk))
    have hst : (IntVec.store (hiBit q + 1) ((keptRuns T sa s).map (fun k => pv T sa (tl T sa k)))).vals = (keptRuns T sa s).map (fun k => pv T sa (tl T sa k)) := by
      rw [IntVec.store_hi]
      intro x hx
      obtain ⟨k, hk, rfl⟩ := List.mem_map.1 hx
      exact e2 _ (List.mem_of_getElem? (tailPos_get (k3 k hk)))
    rw [ints_of h1, ints_of h2, ints_of h3]
    simp only [e1, hsm, hst, sortIndices_length, tailPos_length, bitVector_eq k3, Option.bind_eq_bind, Option.bind_some, Option.pure_def]
    rw [store_fill (I := ideal T sa) (k := .tailsSampled s) rfl, store_fill (I := ideal T sa) (k := .tailsIdxVec s) rfl,
      store_fill (I := ideal T sa) (k := .tailsIdxBv s) rfl, store_fill (I := ideal T sa) (k := .tailsIdxBvSd s) rfl]
    simp only [fill_fill]
    rfl
  | heads s =>
    have h1 : D .headsPosVec = some (.ints (headPos T sa)) := hD _ (by simp [Step.needs])
    have h2 : D (.tailsIdxVec s) = some (.ints (keptRuns T sa s)) := hD _ (by simp [Step.needs])
    have h3 : D .headsSortedVec = some (.ints (sortIndices (headPos T sa))) := hD _ (by simp [Step.needs])
    obtain ⟨k1, k2, k3, k4, k5⟩ := h.kept s
    obtain ⟨-, -, -, -, -, -, hV⟩ := h.library s
    show headsSampling s D = _
    unfold headsSampling
    rw [ints_of h1, ints_of h2, ints_of h3, headsRound_eq h.text h.isSA h.small k2 k3 k4 k5 hV]
    simp only [Option.bind_eq_bind, Option.bind_some, Option.pure_def]
    rw [store_fill (I := ideal T sa) (k := .tailsByHeadS s) rfl, store_fill (I := ideal T sa) (k := .markedVec s) rfl,
      store_fill (I := ideal T sa) (k := .markedBv s) rfl, store_fill (I := ideal T sa) (k := .markedBvSd s) rfl,
      store_fill (I := ideal T sa) (k := .headsSampledBv s) rfl, store_fill (I := ideal T sa) (k := .headsSampledBvSd s) rfl,
      store_fill (I := ideal T sa) (k := .areas s) rfl]
    simp only [fill_fill]
    rfl

/-- every benchmark of the list finds its inputs among `have` and the outputs of those before it -/
def covered : List LegacyKey → List Step → Bool
  | _, [] => true
  | have_, t :: l => t.needs.all (fun k => decide (k ∈ have_)) && covered (have_ ++ t.outs) l

theorem covered_append (A B : List Step) : ∀ (ks : List LegacyKey), covered ks (A ++ B) = true → covered ks A = true := by
  induction A with
  | nil => intro ks _; rfl
  | cons t A ih =>
    intro ks h
    rw [List.cons_append, covered, Bool.and_eq_true] at h
    rw [covered, Bool.and_eq_true]
    exact ⟨h.1, ih _ h.2⟩

theorem runSteps_eq {bytes : List Nat} (h : Data T sa) (hb : textOf bytes = T) (hsa : suffixArray T = sa) (k : Nat) (l : List Step) :
    ∀ (ks : List LegacyKey) (D : LegacyDisk), covered ks l = true → (∀ x ∈ ks, D x = ideal T sa x) →
      runSteps bytes k l D = some (fill (ideal T sa) (l.flatMap Step.outs) D) := by
  induction l with
  | nil => intro ks D _ _; rw [runSteps, List.flatMap_nil, fill_nil]
  | cons t l ih =>
    intro ks D hc hD
    rw [covered, Bool.and_eq_true, List.all_eq_true] at hc
    rw [runSteps, step_run h hb hsa k t D (fun x hx => hD x (by simpa using hc.1 x hx))]
    simp only [Option.bind_eq_bind, Option.bind_some]
    rw [ih (ks ++ t.outs) _ hc.2 ?_, fill_fill, List.flatMap_cons]
    intro x hx
    unfold fill
    by_cases ho : x ∈ t.outs
    · rw [if_pos ho]
    · rw [if_neg ho]; exact hD x ((List.mem_append.1 hx).resolve_right ho)

theorem runSteps_append (bytes : List Nat) (k : Nat) (A B : List Step) (D : LegacyDisk) :
    runSteps bytes k (A ++ B) D = (runSteps bytes k A D).bind (runSteps bytes k B) := by
  induction A generalizing D with
  | nil => rfl
  | cons t A ih =>
    rw [List.cons_append, runSteps, runSteps]
    cases t.run bytes k D with
    | none => rfl
    | some D' => exact ih D'

/-- the index loaded from right files has right parts -/
theorem load_ok (h : Data T sa) (h1 : 1 ∉ T) (s : Nat) {D : LegacyDisk}
    (hD : ∀ x ∈ [LegacyKey.bwtRle, .f, .tailsSampled s, .headsSampledBvSd s, .tailsByHeadS s, .tailsIdxBvSd s, .markedBv s, .areas s], D x = ideal T sa x) :
    ∃ I, load D s = some I ∧ I.OK T sa (keptRuns T sa s) ∧ I.items.sr.s = s := by
  have hn := h.text.pos
  obtain ⟨S, hS, hq⟩ := LegacyIndex.seq_builds h.text h.isSA h1 h.low (show 1 ≤ 2 by omega)
  obtain ⟨J, T', -, ok, hs, hc, -⟩ := h.library s
  obtain ⟨-, -, c3⟩ := compact_items h.text h.isSA hc
  have hnr := hc.nrun_eq h.text h.isSA
  have htl := hc.tl_eq h.text h.isSA
  have hlen := hc.len
  have e1 : D.rle .bwtRle = some S := by rw [LegacyDisk.rle, hD _ (by simp), ideal, hS]; rfl
  have e2 : D.ints .f = (List.range 256).map (below T) := ints_of (hD _ (by simp))
  have hsam : J.sr.base.samples = (keptRuns T sa s).map (fun k => pv T sa (tl T sa k)) := by
    rw [ok.sr.samples]
    apply List.map_congr_left
    intro k _
    rw [hc.pv_eq, htl]
  have e3 : D.ints (.tailsSampled s) = J.sr.base.samples := by rw [hsam]; exact ints_of (hD _ (by simp))
  have e4 : D.bits (.headsSampledBvSd s) = J.sr.base.marks := by
    rw [ok.sr.marks, hlen, c3, LegacyDisk.bits, hD _ (by simp)]; rfl
  have e5 : D.ints (.tailsByHeadS s) = J.sr.base.markToSample := by
    rw [ok.sr.links, c3]; exact ints_of (hD _ (by simp))
  have e6 : D.bits (.tailsIdxBvSd s) = J.sr.samplesIdx := by
    rw [ok.sr.samplesIdx, hnr, LegacyDisk.bits, hD _ (by simp)]; rfl
  have e7 : D.bits (.markedBv s) = J.validMarks := by
    rw [ok.marks, LegacyDisk.bits, hD _ (by simp)]; rfl
  have e8 : D.ints (.areas s) = (reports T sa s).map (fun q => q.2.2 - q.2.1 + 1) := ints_of (hD _ (by simp))
  have e9 : S.size = J.sr.base.n := by rw [hq.size, ok.sr.nav.n, hlen]
  have ok' : SrIndexValid.OK { J with validAreas := (reports T sa s).map (fun q => q.2.2 - q.2.1 + 1) } T' sa (keptRuns T sa s) (reports T sa s) :=
    ⟨ok.sr, ok.marks, ⟨1, Nat.le_refl _, rfl⟩, ok.sorted, ok.entry, ok.gap⟩
  refine ⟨{ rle := S, f := (List.range 256).map (below T), lastSym := LegacyIndex.symAt T sa (T.length - 1),
            items := { sr := { base := { alphabet := ⟨[], []⟩, bwtRle := ⟨0, 0, [], [], []⟩, samples := J.sr.base.samples, marks := J.sr.base.marks, markToSample := J.sr.base.markToSample, n := J.sr.base.n }, samplesIdx := J.sr.samplesIdx, s := J.sr.s }, validMarks := J.validMarks, validAreas := (reports T sa s).map (fun q => q.2.2 - q.2.1 + 1) } }, ?_, ?_, hs⟩
  · rw [load, e1]
    simp only [e2, e3, e4, e5, e6, e7, e8, Option.bind_some, Option.bind_eq_bind]
    rw [show csub S.size 1 = some (T.length - 1) by rw [hq.size, csub, if_pos (by omega)], Option.bind_some,
      hq.access (show T.length - 1 < T.length by omega), Option.bind_some, e9, hs]
    rfl
  · constructor
    · exact hq
    · rfl
    · exact ok.sr.sorted
    · intro k hk; rw [← hnr]; exact ok.sr.lt k hk
    · exact hsam
    · dsimp only; rw [ok.sr.samplesIdx, hnr]
    · obtain ⟨k, hk, e⟩ := ok.sr.zero
      exact ⟨k, hk, by rw [← htl]; exact e⟩
    · exact hc.phiOK h.text h.isSA ok'.sr.phiOK
    · exact hc.phiOK h.text h.isSA ok'.phiOK_mark
    · exact hc.phiOK h.text h.isSA ok'.phiOK_area
    · exact hc.phiValid ok'.phiValid_mark
    · exact hc.phiValid ok'.phiValid_area

theorem loadR_ok (h : Data T sa) (h1 : 1 ∉ T) {D : LegacyDisk}
    (hD : ∀ x ∈ [LegacyKey.bwtRle, .f, .tailsPos, .headsPosBvSd, .tailsByHead], D x = ideal T sa x) :
    ∃ I, loadR D = some I ∧ I.OK T sa := by
  have hn := h.text.pos
  obtain ⟨S, hS, hq⟩ := LegacyIndex.seq_builds h.text h.isSA h1 h.low (show 1 ≤ 2 by omega)
  obtain ⟨J, T', hJ, ok, hc⟩ := RIndex.build_ok h.text h.isSA
  obtain ⟨c1, c2, -⟩ := compact_items h.text h.isSA hc
  have hnr := hc.nrun_eq h.text h.isSA
  have hlen := hc.len
  have hpos := nrun_pos (sa := sa) hn
  have e1 : D.rle .bwtRle = some S := by rw [LegacyDisk.rle, hD _ (by simp), ideal, hS]; rfl
  have e2 : D.ints .f = (List.range 256).map (below T) := ints_of (hD _ (by simp))
  have hsam : J.samples = tailPos T sa := by rw [ok.samples, c2]
  have e3 : D.ints .tailsPos = J.samples := by rw [hsam]; exact ints_of (hD _ (by simp))
  have e4 : D.bits .headsPosBvSd = J.marks := by
    rw [ok.marks, hlen, c1, LegacyDisk.bits, hD _ (by simp)]; rfl
  have e5 : D.ints .tailsByHead = J.markToSample := by
    rw [ok.links, hnr, c1]
    have : (linksPhiBackward (headPos T sa)).2 = (sortIndices (headPos T sa)).map (fun k => (k + nrun T sa - 1) % nrun T sa) := by
      conv_rhs => rw [← headPos_length (T := T) (sa := sa)]
      rfl
    rw [← this]
    exact ints_of (hD _ (by simp))
  have e9 : S.size = J.n := by rw [hq.size, ok.n, hlen]
  refine ⟨{ rle := S, f := (List.range 256).map (below T), items := { alphabet := ⟨[], []⟩, bwtRle := ⟨0, 0, [], [], []⟩, samples := J.samples, marks := J.marks, markToSample := J.markToSample, n := J.n }, finalValue := pv T sa (T.length - 1) + 1 }, ?_, hq, hsam, ?_, rfl⟩
  · rw [loadR, e1]
    simp only [e2, e3, e4, e5, hsam, tailPos_length, Option.bind_some, Option.bind_eq_bind]
    rw [show csub (nrun T sa) 1 = some (nrun T sa - 1) by rw [csub, if_pos (by omega)], Option.bind_some,
      tailPos_get (show nrun T sa - 1 < nrun T sa by omega), Option.bind_some, tl_last hn, e9]
    rfl
  · intro i h1 hi
    exact ok.phi_eq h1 (by rw [hlen]; exact hi)

end
end LegacyBuild
end Sri
