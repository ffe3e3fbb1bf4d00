import Verif.Proofs.Phi
import Verif.Proofs.Alphabet
import Verif.Proofs.BWTRuns
import Verif.Proofs.RLEString
import Verif.Proofs.IndexBase
/-! # Runs of the BWT by index: first and last position of the `k`-th run, and the items computed from them -/
namespace Sri
set_option autoImplicit false

section
variable {T sa : List Nat}

/-- run-length encoding of the BWT -/
def runsOf (T sa : List Nat) : List (Nat × Nat) := rle ((List.range T.length).map (bwtAt T sa))

/-- number of runs -/
def nrun (T sa : List Nat) : Nat := (runsOf T sa).length

/-- first position of run `k` -/
def hd (T sa : List Nat) (k : Nat) : Nat := rstart (runsOf T sa) k

/-- last position of run `k` -/
def tl (T sa : List Nat) (k : Nat) : Nat := rstart (runsOf T sa) (k+1) - 1

/-- symbol of run `k` -/
def sy (T sa : List Nat) (k : Nat) : Nat := ((runsOf T sa).getD k (0,0)).1

theorem sy_eq {k : Nat} (hk : k < nrun T sa) : sy T sa k = ((runsOf T sa)[k]'hk).1 := by
  rw [sy, List.getD_eq_getElem?_getD, List.getElem?_eq_getElem hk]; rfl

theorem expand_runsOf : expand (runsOf T sa) = (List.range T.length).map (bwtAt T sa) := expand_rle _

theorem rstart_runsOf : rstart (runsOf T sa) (nrun T sa) = T.length := by
  rw [nrun, ← length_expand, expand_runsOf]; simp

theorem nrun_pos (hn : 0 < T.length) : 0 < nrun T sa := by
  by_contra hc
  have h := rstart_runsOf (T := T) (sa := sa)
  rw [show nrun T sa = 0 by omega] at h
  simp [rstart] at h; omega

theorem runsOf_pos : ∀ q ∈ runsOf T sa, 0 < q.2 := rle_pos _

theorem hd_zero : hd T sa 0 = 0 := by simp [hd, rstart]

theorem rstart_lt {k : Nat} (hk : k < nrun T sa) : rstart (runsOf T sa) k < rstart (runsOf T sa) (k+1) :=
  rstart_strict runsOf_pos (by omega) hk

theorem tl_succ {k : Nat} (hk : k < nrun T sa) : tl T sa k + 1 = hd T sa (k+1) := by
  have := rstart_lt hk; rw [tl, hd]; omega

theorem hd_le_tl {k : Nat} (hk : k < nrun T sa) : hd T sa k ≤ tl T sa k := by
  have := rstart_lt hk; rw [tl, hd]; omega

theorem tl_lt {k : Nat} (hk : k < nrun T sa) : tl T sa k < T.length := by
  have h1 := rstart_lt hk
  have h2 := rstart_mono (runsOf T sa) (show k + 1 ≤ nrun T sa by omega)
  rw [rstart_runsOf] at h2; rw [tl]; omega

theorem hd_lt {k : Nat} (hk : k < nrun T sa) : hd T sa k < T.length := Nat.lt_of_le_of_lt (hd_le_tl hk) (tl_lt hk)

theorem tl_last (hn : 0 < T.length) : tl T sa (nrun T sa - 1) = T.length - 1 := by
  have := nrun_pos (sa := sa) hn
  rw [tl, show nrun T sa - 1 + 1 = nrun T sa by omega, rstart_runsOf]

theorem run_find {i : Nat} (h : i < T.length) : ∃ k, k < nrun T sa ∧ hd T sa k ≤ i ∧ i ≤ tl T sa k := by
  obtain ⟨k, hk, h1, h2⟩ := rstart_find (runsOf T sa) (i := i) (by have := rstart_runsOf (T := T) (sa := sa); rw [nrun] at this; omega)
  exact ⟨k, hk, h1, by rw [tl]; omega⟩

theorem run_unique {i k m : Nat} (hk : k < nrun T sa) (hm : m < nrun T sa) (h1 : hd T sa k ≤ i) (h2 : i ≤ tl T sa k)
    (h3 : hd T sa m ≤ i) (h4 : i ≤ tl T sa m) : k = m := by
  have a := rstart_lt hk
  have b := rstart_lt hm
  rw [tl] at h2 h4
  exact rstart_unique h1 (by omega) h3 (by omega)

theorem bwt_run {i k : Nat} (hk : k < nrun T sa) (h1 : hd T sa k ≤ i) (h2 : i ≤ tl T sa k) : bwtAt T sa i = sy T sa k := by
  have ha := rstart_lt hk
  have hi : i < T.length := Nat.lt_of_le_of_lt h2 (tl_lt hk)
  have := getElem_expand (R := runsOf T sa) hk h1 (by rw [tl] at h2; omega)
  rw [expand_runsOf, List.getElem?_map, List.getElem?_range hi] at this
  rw [sy_eq hk]; simpa using this

theorem sy_ne {k : Nat} (hk : k + 1 < nrun T sa) : sy T sa k ≠ sy T sa (k+1) := by
  rw [sy_eq (show k < nrun T sa by omega), sy_eq hk]
  exact (rle_alternating _).getElem hk

theorem hd_strict {k m : Nat} (h : k < m) (hm : m < nrun T sa) : hd T sa k < hd T sa m :=
  rstart_strict runsOf_pos h (Nat.le_of_lt hm)

theorem tl_strict {k m : Nat} (h : k < m) (hm : m < nrun T sa) : tl T sa k < tl T sa m := by
  have h1 := tl_succ (show k < nrun T sa by omega)
  have h2 := hd_le_tl hm
  have h3 := rstart_mono (runsOf T sa) (show k + 1 ≤ m by omega)
  rw [← hd, ← hd] at h3
  omega

theorem hd_inj {k m : Nat} (hk : k < nrun T sa) (hm : m < nrun T sa) (h : hd T sa k = hd T sa m) : k = m := by
  rcases Nat.lt_trichotomy k m with a | a | a
  · have := hd_strict a hm; omega
  · exact a
  · have := hd_strict a hk; omega

theorem tl_inj {k m : Nat} (hk : k < nrun T sa) (hm : m < nrun T sa) (h : tl T sa k = tl T sa m) : k = m := by
  rcases Nat.lt_trichotomy k m with a | a | a
  · have := tl_strict a hm; omega
  · exact a
  · have := tl_strict a hk; omega

theorem headAt_hd {k : Nat} (hk : k < nrun T sa) : HeadAt T sa (hd T sa k) := by
  refine ⟨hd_lt hk, ?_⟩
  cases k with
  | zero => left; exact hd_zero
  | succ k =>
    right
    have h := tl_succ (show k < nrun T sa by omega)
    rw [bwt_run hk (Nat.le_refl _) (hd_le_tl hk), ← h, Nat.add_sub_cancel,
      bwt_run (show k < nrun T sa by omega) (hd_le_tl (by omega)) (Nat.le_refl _)]
    exact sy_ne hk

theorem headAt_iff {i : Nat} : HeadAt T sa i ↔ ∃ k, k < nrun T sa ∧ hd T sa k = i := by
  constructor
  · rintro ⟨h1, h2⟩
    obtain ⟨k, hk, a, b⟩ := run_find (sa := sa) h1
    refine ⟨k, hk, ?_⟩
    by_contra hc
    rcases h2 with h2 | h2
    · omega
    · rw [bwt_run hk (by omega) (by omega), bwt_run hk a b] at h2; exact h2 rfl
  · rintro ⟨k, hk, rfl⟩; exact headAt_hd hk

theorem tailAt_tl {k : Nat} (hk : k < nrun T sa) : TailAt T sa (tl T sa k) := by
  refine ⟨tl_lt hk, ?_⟩
  by_cases h : k + 1 < nrun T sa
  · right
    rw [tl_succ hk, bwt_run hk (hd_le_tl hk) (Nat.le_refl _), bwt_run h (Nat.le_refl _) (hd_le_tl h)]
    exact sy_ne h
  · left
    have hn : 0 < T.length := by have := tl_lt hk; omega
    have := tl_last (T := T) (sa := sa) hn
    rw [show k = nrun T sa - 1 by omega, this]; omega

theorem tailAt_iff {i : Nat} : TailAt T sa i ↔ ∃ k, k < nrun T sa ∧ tl T sa k = i := by
  constructor
  · rintro ⟨h1, h2⟩
    obtain ⟨k, hk, a, b⟩ := run_find (sa := sa) h1
    refine ⟨k, hk, ?_⟩
    by_contra hc
    have hlt := tl_lt hk
    rcases h2 with h2 | h2
    · omega
    · rw [bwt_run hk (by omega) (by omega), bwt_run hk (by omega) (by omega)] at h2; exact h2 rfl
  · rintro ⟨k, hk, rfl⟩; exact tailAt_tl hk

/-! ## text positions of run heads and tails -/

/-- text positions of the BWT characters at the run heads, in run order -/
def headPos (T sa : List Nat) : List Nat := (List.range (nrun T sa)).map (fun k => pv T sa (hd T sa k))

/-- text positions of the BWT characters at the run tails, in run order -/
def tailPos (T sa : List Nat) : List Nat := (List.range (nrun T sa)).map (fun k => pv T sa (tl T sa k))

theorem headPos_length : (headPos T sa).length = nrun T sa := by simp [headPos]
theorem tailPos_length : (tailPos T sa).length = nrun T sa := by simp [tailPos]

theorem headPos_get {k : Nat} (hk : k < nrun T sa) : (headPos T sa)[k]? = some (pv T sa (hd T sa k)) := by
  rw [headPos, List.getElem?_map, List.getElem?_range hk]; rfl

theorem tailPos_get {k : Nat} (hk : k < nrun T sa) : (tailPos T sa)[k]? = some (pv T sa (tl T sa k)) := by
  rw [tailPos, List.getElem?_map, List.getElem?_range hk]; rfl

theorem headPos_nodup (hsa : IsSA T sa) : (headPos T sa).Nodup := by
  refine List.Nodup.map_on ?_ List.nodup_range
  intro x hx y hy h
  rw [List.mem_range] at hx hy
  exact hd_inj hx hy (pv_inj hsa (hd_lt hx) (hd_lt hy) h)

theorem tailPos_nodup (hsa : IsSA T sa) : (tailPos T sa).Nodup := by
  refine List.Nodup.map_on ?_ List.nodup_range
  intro x hx y hy h
  rw [List.mem_range] at hx hy
  exact tl_inj hx hy (pv_inj hsa (tl_lt hx) (tl_lt hy) h)

theorem headPos_lt (hn : 0 < T.length) : ∀ v ∈ headPos T sa, v < T.length := by
  intro v hv
  obtain ⟨k, -, rfl⟩ := List.mem_map.1 hv
  exact pv_lt hn

theorem tailPos_lt (hn : 0 < T.length) : ∀ v ∈ tailPos T sa, v < T.length := by
  intro v hv
  obtain ⟨k, -, rfl⟩ := List.mem_map.1 hv
  exact pv_lt hn

theorem headPos_ne (hn : 0 < T.length) : headPos T sa ≠ [] := by
  have := nrun_pos (sa := sa) hn
  rw [← List.length_pos_iff, headPos_length]; exact this

theorem tailPos_ne (hn : 0 < T.length) : tailPos T sa ≠ [] := by
  have := nrun_pos (sa := sa) hn
  rw [← List.length_pos_iff, tailPos_length]; exact this

theorem mem_headPos {p : Nat} : p ∈ headPos T sa ↔ HeadMark T sa p := by
  simp only [headPos, List.mem_map, List.mem_range, HeadMark, headAt_iff]
  constructor
  · rintro ⟨k, hk, rfl⟩; exact ⟨_, ⟨k, hk, rfl⟩, rfl⟩
  · rintro ⟨_, ⟨k, hk, rfl⟩, rfl⟩; exact ⟨k, hk, rfl⟩

/-- the BWT position whose character is the terminator belongs to a run of its own -/
theorem zero_run (hT : IsText T) (hsa : IsSA T sa) :
    ∃ k, k < nrun T sa ∧ hd T sa k = tl T sa k ∧ saAt sa (hd T sa k) = 0 ∧ pv T sa (hd T sa k) = T.length - 1 := by
  have hn := hT.pos
  have h0 := saAt_isaOf hsa hn
  have hlt := isaOf_lt hsa hn
  obtain ⟨h1, h2⟩ := zero_headAt hT hsa hlt h0
  obtain ⟨k, hk, e⟩ := headAt_iff.1 h1
  obtain ⟨m, hm, e'⟩ := tailAt_iff.1 h2
  have : k = m := by
    refine run_unique (i := isaOf sa 0) hk hm (by omega) ?_ ?_ (by omega)
    · have := hd_le_tl hk; omega
    · have := hd_le_tl hm; omega
  subst this
  refine ⟨k, hk, by omega, by rw [e]; exact h0, ?_⟩
  rw [e]; exact pv_of_zero hn h0

/-! ## last run of a symbol before a position -/

theorem cnt_take {c i : Nat} (hi : i ≤ T.length) :
    (((List.range T.length).map (bwtAt T sa)).take i).count c = cnt T sa c i := by
  rw [← List.map_take, List.take_range, Nat.min_eq_left hi, count_map_range]; rfl

end
end Sri
