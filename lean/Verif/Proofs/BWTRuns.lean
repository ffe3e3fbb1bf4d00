import Verif.Proofs.Alphabet
import Verif.Proofs.Rle
/-! # What constructBWTRuns computes -/
namespace Sri
set_option autoImplicit false

/-- run starts / run ends of a run list laid out from position `o` -/
def starts (o : Nat) : List (Nat × Nat) → List Nat
  | [] => []
  | q :: R => o :: starts (o + q.2) R

def ends (o : Nat) : List (Nat × Nat) → List Nat
  | [] => []
  | q :: R => (o + q.2 - 1) :: ends (o + q.2) R

theorem starts_length (o : Nat) (R) : (starts o R).length = R.length := by
  induction R generalizing o with
  | nil => rfl
  | cons q R ih => simp [starts, ih]

theorem ends_length (o : Nat) (R) : (ends o R).length = R.length := by
  induction R generalizing o with
  | nil => rfl
  | cons q R ih => simp [ends, ih]

theorem starts_getElem (o : Nat) (R : List (Nat × Nat)) {k : Nat} (hk : k < R.length) :
    (starts o R)[k]? = some (o + rstart R k) := by
  induction R generalizing o k with
  | nil => simp at hk
  | cons q R ih =>
    cases k with
    | zero => simp [starts]
    | succ k =>
      simp only [starts, List.getElem?_cons_succ]
      rw [ih _ (by simpa using hk)]
      simp [rstart]; omega

theorem ends_getElem (o : Nat) (R : List (Nat × Nat)) {k : Nat} (hk : k < R.length) :
    (ends o R)[k]? = some (o + rstart R (k+1) - 1) := by
  induction R generalizing o k with
  | nil => simp at hk
  | cons q R ih =>
    cases k with
    | zero => simp [ends, rstart]
    | succ k =>
      simp only [ends, List.getElem?_cons_succ]
      rw [ih _ (by simpa using hk)]
      simp [rstart]; omega

theorem bwtRunsLoop_eq (n : Nat) (tp : Nat → Nat) (rest : List (Nat × Nat)) (i prevSym : Nat) (hi : 1 ≤ i)
    (hn : n = i + rest.length) (htp : ∀ j q, rest[j]? = some q → q.2 = tp (i + j)) :
    (bwtRunsLoop n i prevSym (tp (i-1)) rest).first = (starts (i-1) (rle (prevSym :: rest.map (·.1)))).tail ∧
    (bwtRunsLoop n i prevSym (tp (i-1)) rest).firstTextPos = (starts (i-1) (rle (prevSym :: rest.map (·.1)))).tail.map tp ∧
    (bwtRunsLoop n i prevSym (tp (i-1)) rest).last = ends (i-1) (rle (prevSym :: rest.map (·.1))) ∧
    (bwtRunsLoop n i prevSym (tp (i-1)) rest).lastTextPos = (ends (i-1) (rle (prevSym :: rest.map (·.1)))).map tp := by
  induction rest generalizing i prevSym with
  | nil =>
    simp only [List.length_nil, Nat.add_zero] at hn
    subst hn
    simp [bwtRunsLoop, rle, starts, ends]
  | cons q rest ih =>
    obtain ⟨sym, pos⟩ := q
    have hpos : pos = tp i := by simpa using htp 0 (sym, pos) (by simp)
    subst hpos
    have ih' := fun s => ih (i+1) s (by omega) (by simp at hn; omega)
      (fun j q hq => by rw [htp (j+1) q (by simpa using hq)]; congr 1; omega)
    simp only [Nat.add_sub_cancel] at ih'
    rw [bwtRunsLoop]
    by_cases hs : sym ≠ prevSym
    · rw [if_pos hs]
      obtain ⟨h1, h2, h3, h4⟩ := ih' sym
      obtain ⟨l, R, hr⟩ := rle_cons sym (rest.map (·.1))
      rw [List.map_cons, rle_eq_diff (Ne.symm hs)]
      simp only
      rw [h1, h2, h3, h4]
      simp only [starts, ends, List.tail_cons, Nat.add_sub_cancel]
      rw [show i - 1 + 1 = i by omega, hr]
      simp [starts]
    · rw [if_neg hs]
      have hs' : sym = prevSym := by simpa using hs
      subst hs'
      obtain ⟨h1, h2, h3, h4⟩ := ih' sym
      obtain ⟨l, R, hr⟩ := rle_cons sym (rest.map (·.1))
      rw [List.map_cons, rle_eq_same _ _ hr, h1, h2, h3, h4, hr]
      simp only [starts, ends, List.tail_cons, List.map_cons]
      have e1 : i - 1 + (l + 1 + 1) = i + (l + 1) := by omega
      rw [e1]
      simp

/-- The result of constructBWTRuns in terms of the run-length encoding of the BWT. -/
theorem constructBWTRuns_eq {bwt sa : List Nat} (hne : bwt ≠ []) (hl : sa.length = bwt.length) :
    constructBWTRuns bwt sa = some
      { first := starts 0 (rle bwt),
        firstTextPos := (starts 0 (rle bwt)).map (fun i => bwtTextPos bwt.length (sa.getD i 0)),
        last := ends 0 (rle bwt),
        lastTextPos := (ends 0 (rle bwt)).map (fun i => bwtTextPos bwt.length (sa.getD i 0)) } := by
  cases bwt with
  | nil => exact absurd rfl hne
  | cons b bwt =>
    cases sa with
    | nil => simp at hl
    | cons s sa =>
      have hlen : bwt.length = sa.length := by simpa using hl.symm
      set n := (b :: bwt).length with hn
      have hz : ((b :: bwt).zip ((s :: sa).map (bwtTextPos n))) = (b, bwtTextPos n s) :: (bwt.zip (sa.map (bwtTextPos n))) := rfl
      unfold constructBWTRuns
      simp only [← hn, hz]
      have := bwtRunsLoop_eq n (fun i => bwtTextPos n ((s :: sa).getD i 0)) (bwt.zip (sa.map (bwtTextPos n))) 1 b
        (Nat.le_refl _) (by simp [hn, hlen]; omega) (by
          intro j q hq
          rw [List.getElem?_zip_eq_some] at hq
          obtain ⟨-, h2⟩ := hq
          rw [List.getElem?_map, Option.map_eq_some_iff] at h2
          obtain ⟨x, hx, hx2⟩ := h2
          rw [← hx2, List.getD_eq_getElem?_getD, show 1 + j = j + 1 by omega, List.getElem?_cons_succ, hx]; rfl)
      have e : (bwt.zip (sa.map (bwtTextPos n))).map (·.1) = bwt := by
        have : (bwt.zip (sa.map (bwtTextPos n))).map (·.1) = (bwt.zip (sa.map (bwtTextPos n))).map Prod.fst := rfl
        rw [this, List.map_fst_zip]; simp [hlen]
      simp only [e, Nat.sub_self, List.getD_cons_zero] at this
      obtain ⟨h1, h2, h3, h4⟩ := this
      rw [h1, h2, h3, h4]
      obtain ⟨l, R, hr⟩ := rle_cons b bwt
      rw [hr]
      simp [starts]

/-- injective renaming of the symbols does not move the runs -/
theorem rle_map_inj {f : Nat → Nat} {xs : List Nat} (hi : ∀ c ∈ xs, ∀ d ∈ xs, f c = f d → c = d) :
    rle (xs.map f) = (rle xs).map (fun q => (f q.1, q.2)) := by
  induction xs with
  | nil => rfl
  | cons x xs ih =>
    cases xs with
    | nil => rfl
    | cons y ys =>
      have ih := ih (fun c hc d hd => hi c (by simp [hc]) d (by simp [hd]))
      obtain ⟨l, R, hr⟩ := rle_cons y ys
      by_cases h : x = y
      · subst h
        rw [rle_eq_same _ _ hr]
        rw [hr] at ih
        have := rle_eq_same (f x) (ys.map f) (l := l+1) (R := R.map (fun q => (f q.1, q.2))) (by simpa using ih)
        simpa using this
      · have h' : f x ≠ f y := fun e => h (hi _ (by simp) _ (by simp) e)
        rw [rle_eq_diff h]
        have := rle_eq_diff h' (ys.map f)
        simp only [List.map_cons] at this ih ⊢
        rw [this, ih]

theorem starts_map (f : Nat → Nat) (o : Nat) (R : List (Nat × Nat)) :
    starts o (R.map (fun q => (f q.1, q.2))) = starts o R := by
  induction R generalizing o with
  | nil => rfl
  | cons q R ih => simp [starts, ih]

theorem ends_map (f : Nat → Nat) (o : Nat) (R : List (Nat × Nat)) :
    ends o (R.map (fun q => (f q.1, q.2))) = ends o R := by
  induction R generalizing o with
  | nil => rfl
  | cons q R ih => simp [ends, ih]

end Sri
