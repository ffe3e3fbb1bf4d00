import Verif.Proofs.RIndex
import Verif.Model.SrIndex
/-! # Splitting a range into pieces of BWT runs -/
namespace Sri
set_option autoImplicit false

section
variable {T sa : List Nat} {S : RLEString}

/-- the run `k` as the run-length string reports it -/
def runDataOf (T sa : List Nat) (k : Nat) : RLEString.RunData :=
  { rnk := k, c := sy T sa k, start := hd T sa k, stop := tl T sa k + 1 }

theorem RleBwt.splitInRuns (h : RleBwt S T sa) {first last : Nat} (h1 : first < last) (h2 : last ≤ T.length) :
    ∃ k m, k + m < nrun T sa ∧ hd T sa k ≤ first ∧ first ≤ tl T sa k ∧ hd T sa (k+m) < last ∧ last ≤ tl T sa (k+m) + 1 ∧
      S.splitInRuns first last = some ((List.range' k (m+1)).map (runDataOf T sa)) := by
  obtain ⟨k, hk, g1, g2⟩ := run_find (sa := sa) (show first < T.length by omega)
  have hlast : last ≤ rstart (runsOf T sa) (runsOf T sa).length := by
    have := rstart_runsOf (T := T) (sa := sa); rw [nrun] at this; omega
  obtain ⟨e, a1, a2, a3, a4, a5⟩ := h.rep.splitLoop hlast ((runsOf T sa).length + 1) k hk (by omega)
  refine ⟨k, e - k, ?_, g1, g2, ?_, ?_, ?_⟩
  · change k + (e - k) < (runsOf T sa).length; omega
  · rw [show k + (e - k) = e by omega]
    rcases Nat.lt_or_eq_of_le a1 with hlt | rfl
    · exact a4 hlt
    · omega
  · rw [show k + (e - k) = e by omega, tl_succ a2]; exact a3
  · unfold RLEString.splitInRuns
    have hr : S.r = (runsOf T sa).length := h.rep.r
    simp only [h.size, show first ≤ last ∧ last ≤ T.length by omega, and_self, decide_true, assertC, if_true, Option.bind_eq_bind,
      Option.bind_some]
    rw [h.rep.rankSoftRun hk g1 (RleBwt.rstart_bounds hk g2)]
    simp only [Option.bind_some, hr]
    rw [a5, show e - k + 1 = e + 1 - k by omega]
    congr 1
    apply List.map_congr_left
    intro j hj
    rw [List.mem_range'_1] at hj
    have hjn : j < nrun T sa := by change j < (runsOf T sa).length; omega
    have hjn' : j < (runsOf T sa).length := hjn
    rw [dif_pos hjn', runDataOf, sy_eq hjn, tl_succ hjn]; rfl

/-- a piece of BWT run `k` -/
structure PieceOK (T sa : List Nat) (r : PhiRun) (k : Nat) : Prop where
  lt : k < nrun T sa
  rnk : r.rnk = k
  c : r.c = sy T sa k
  lo : hd T sa k ≤ r.start
  ne : r.start < r.stop
  hi : r.stop ≤ tl T sa k + 1
  isEnd : r.isRunEnd = decide (r.stop = tl T sa k + 1)

/-- consecutive pieces covering `[a,b)` -/
def Pieces (T sa : List Nat) (b : Nat) : Nat → List PhiRun → Prop
  | a, [] => a = b
  | a, r :: rs => r.start = a ∧ (∃ k, PieceOK T sa r k) ∧ Pieces T sa b r.stop rs

/-- the same, from the last piece to the first -/
def PiecesRev (T sa : List Nat) (a : Nat) : Nat → List PhiRun → Prop
  | b, [] => a = b
  | b, r :: rs => r.stop = b ∧ (∃ k, PieceOK T sa r k) ∧ PiecesRev T sa a r.start rs

theorem PiecesRev.le {a b : Nat} {l : List PhiRun} (h : PiecesRev T sa a b l) : a ≤ b := by
  induction l generalizing b with
  | nil => exact Nat.le_of_eq h
  | cons r rs ih =>
    obtain ⟨h1, ⟨k, hk⟩, h3⟩ := h
    have := ih h3; have := hk.ne; omega

theorem PiecesRev.append {a b c : Nat} {l l' : List PhiRun} (h : PiecesRev T sa b c l) (h' : PiecesRev T sa a b l') :
    PiecesRev T sa a c (l ++ l') := by
  induction l generalizing c with
  | nil => cases h; exact h'
  | cons r rs ih => exact ⟨h.1, h.2.1, ih h.2.2⟩

theorem Pieces.rev {a b : Nat} {l : List PhiRun} (h : Pieces T sa b a l) : PiecesRev T sa a b l.reverse := by
  induction l generalizing a with
  | nil => exact h
  | cons r rs ih =>
    rw [List.reverse_cons]
    refine (ih h.2.2).append ?_
    exact ⟨rfl, h.2.1, h.1.symm⟩

/-- run `k` as constructSplitInBWTRuns records it, with the given start -/
def pieceAt (T sa : List Nat) (last k start : Nat) : PhiRun :=
  { start := start, stop := tl T sa k + 1, c := sy T sa k, rnk := k, isRunEnd := decide (tl T sa k + 1 ≤ last) }

theorem setBack_pieces {last : Nat} (m : Nat) : ∀ (k first : Nat), k + m < nrun T sa → hd T sa k ≤ first → first ≤ tl T sa k →
    first < last → hd T sa (k+m) < last → last ≤ tl T sa (k+m) + 1 →
    Pieces T sa last first (SrIndex.setBackStop last
      (pieceAt T sa last k first :: (List.range' (k+1) m).map (fun j => pieceAt T sa last j (hd T sa j)))) := by
  induction m with
  | zero =>
    intro k first hk h1 h2 h3 h4 h5
    simp only [List.range'_zero, List.map_nil, SrIndex.setBackStop]
    refine ⟨rfl, ⟨k, hk, rfl, rfl, h1, h3, h5, ?_⟩, rfl⟩
    change last ≤ tl T sa k + 1 at h5
    change decide (tl T sa k + 1 ≤ last) = decide (last = tl T sa k + 1)
    congr 1
    apply propext; omega
  | succ m ih =>
    intro k first hk h1 h2 h3 h4 h5
    rw [List.range'_succ, List.map_cons, SrIndex.setBackStop]
    have hk0 : k < nrun T sa := by omega
    have hk1 : k + 1 < nrun T sa := by omega
    have h6 := rstart_mono (runsOf T sa) (show k + 1 ≤ k + (m+1) by omega)
    rw [← hd, ← hd] at h6
    have h7 := tl_succ hk0
    refine ⟨rfl, ⟨k, hk0, rfl, rfl, h1, by dsimp only [pieceAt]; omega, by dsimp only [pieceAt]; omega, ?_⟩, ?_⟩
    · change decide (tl T sa k + 1 ≤ last) = decide (tl T sa k + 1 = tl T sa k + 1)
      rw [decide_eq_true (show tl T sa k + 1 ≤ last by omega), decide_eq_true rfl]
    · have := ih (k+1) (hd T sa (k+1)) (by omega) (Nat.le_refl _) (hd_le_tl hk1) (by omega)
        (by rw [show k + 1 + m = k + (m+1) by omega]; exact h4) (by rw [show k + 1 + m = k + (m+1) by omega]; exact h5)
      dsimp only [pieceAt] at this ⊢
      rw [h7]; exact this

theorem split_pieces {I : SrIndex} (h : I.base.NavOK T sa) {first last : Nat} (h1 : first < last) (h2 : last ≤ T.length) :
    ∃ l, I.split first last = some l ∧ Pieces T sa last first l := by
  obtain ⟨k, m, e1, e2, e3, e4, e5, e6⟩ := h.rle.splitInRuns h1 h2
  refine ⟨_, ?_, setBack_pieces m k first e1 e2 e3 h1 e4 e5⟩
  unfold SrIndex.split
  rw [e6, List.range'_succ]
  simp only [Option.bind_eq_bind, Option.bind_some, List.map_cons, List.map_map, runDataOf]
  rfl

theorem bwtAt_mem (hsa : IsSA T sa) {i : Nat} (h : i < T.length) : bwtAt T sa i ∈ T := by
  have := prev_lt hsa h
  rw [bwtAt, tx, List.getD_eq_getElem?_getD, List.getElem?_eq_getElem this]
  exact List.getElem_mem this

/-- LF moves a piece of a run as a block -/
theorem lf_block (hT : IsText T) (hsa : IsSA T sa) {k a : Nat} (hk : k < nrun T sa) (h1 : hd T sa k ≤ a) (j : Nat)
    (hj : a + j ≤ tl T sa k) : lfAt T sa (a + j) = lfAt T sa a + j := by
  induction j with
  | zero => rfl
  | succ j ih =>
    have hlt := tl_lt hk
    have hb : bwtAt T sa (a+j) = bwtAt T sa (a+j+1) := by
      rw [bwt_run hk (by omega) (by omega), bwt_run hk (i := a+j+1) (by omega) (by omega)]
    have := (lf_adj hT hsa (show a + j + 1 < T.length by omega) hb).1
    rw [← Nat.add_assoc, this, ih (by omega)]; omega

theorem lfForPhi_eq {I : SrIndex} (h : I.base.NavOK T sa) {run : PhiRun} {k : Nat} (hk : k < nrun T sa) (hc : run.c = sy T sa k)
    (h1 : hd T sa k ≤ run.start) (h2 : run.start < run.stop) (h3 : run.stop ≤ tl T sa k + 1) :
    I.lfForPhi run = some { start := lfAt T sa run.start, stop := lfAt T sa run.start + (run.stop - run.start), c := 0, rnk := 0, isRunEnd := false } := by
  have hlt := tl_lt hk
  have hbw := bwt_run hk h1 (show run.start ≤ tl T sa k by omega)
  have hcT : run.c ∈ T := by
    rw [hc, ← hbw]; exact bwtAt_mem h.isSA (by omega)
  unfold SrIndex.lfForPhi
  simp only [h.rle.rank (show run.start ≤ T.length by omega) hcT, h.rle.rank (show run.stop ≤ T.length by omega) hcT, h.C _ hcT,
    Option.bind_eq_bind, Option.bind_some]
  have e1 := lf_eq h.text h.isSA (show run.start < T.length by omega)
  rw [hbw, ← hc] at e1
  have e2 := lf_block h.text h.isSA hk h1 (run.stop - 1 - run.start) (by omega)
  rw [show run.start + (run.stop - 1 - run.start) = run.stop - 1 by omega] at e2
  have e3 := lf_last h.text h.isSA (c := run.c) (y := run.stop - 1) (e := run.stop) (by omega) (by omega)
    (by rw [hc]; exact bwt_run hk (by omega) (by omega)) (fun i h1 h2 => by omega)
  change some _ = some _
  congr 2
  · omega
  · omega

end
end Sri
