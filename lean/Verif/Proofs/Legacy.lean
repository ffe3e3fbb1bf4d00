import Verif.Proofs.LegacyParts
/-! # Searching with inclusive ranges -/
namespace Sri
set_option autoImplicit false

theorem isRange_cons_empty {T sa P : List Nat} (hT : IsText T) (hsa : IsSA T sa) {c x : Nat} (hc : c ≠ 0) (h : IsRange P T sa x x) :
    ∃ y, IsRange (c :: P) T sa y y := ⟨_, backward_step hT hsa hc h⟩

theorem isRange_append_empty {T sa : List Nat} (hT : IsText T) (hsa : IsSA T sa) (l : List Nat) : ∀ (P : List Nat) (x : Nat), (∀ c ∈ l, c ≠ 0) →
    IsRange P T sa x x → ∃ y, IsRange (l.reverse ++ P) T sa y y := by
  induction l with
  | nil => intro P x _ h; exact ⟨x, h⟩
  | cons c l ih =>
    intro P x hl h
    obtain ⟨y, hy⟩ := isRange_cons_empty hT hsa (hl c (by simp)) h
    obtain ⟨z, hz⟩ := ih _ y (fun d hd => hl d (by simp [hd])) hy
    exact ⟨z, by rw [List.reverse_cons, List.append_assoc]; exact hz⟩

namespace LegacyIndex

section
variable {T sa : List Nat} {S : RleString} {f : List Nat}

theorem symAt_of_ne {i c : Nat} (h1 : c ≠ 1) :
    symAt T sa i = c → bwtAt T sa i = c := by
  intro e
  unfold symAt writeTerminator at e
  split at e
  · omega
  · exact e

theorem symAt_eq {i c : Nat} (h0 : c ≠ 0) (hb : bwtAt T sa i = c) : symAt T sa i = c := by
  rw [symAt, writeTerminator, hb, if_neg h0]

/-- the last position of a non-empty range goes to the last occurrence of the character in it -/
theorem SeqOK.last_occ (h : SeqOK S f T sa) {a b c : Nat} (h0 : c ≠ 0) (h1 : c ≠ 1) (hb : b ≤ T.length)
    (hlt : cnt T sa c a < cnt T sa c b) : ∃ j, a ≤ j ∧ j < b ∧ symAt T sa j = c ∧ bwtAt T sa j = c ∧ (∀ x, j < x → x < b → symAt T sa x ≠ c) ∧
      0 < saAt sa j ∧ lfAt T sa j + 1 = cumC T c + cnt T sa c b := by
  have key : ∀ d, cnt T sa c a < cnt T sa c (a + d) → ∃ j, a ≤ j ∧ j < a + d ∧ bwtAt T sa j = c ∧ ∀ x, j < x → x < a + d → bwtAt T sa x ≠ c := by
    intro d
    induction d with
    | zero => intro h; rw [Nat.add_zero] at h; omega
    | succ d ih =>
      intro h
      have hs := cnt_succ (T := T) (sa := sa) c (a + d)
      by_cases hc : bwtAt T sa (a + d) = c
      · exact ⟨a + d, by omega, by omega, hc, fun x h1 h2 => by omega⟩
      · rw [if_neg hc] at hs
        obtain ⟨j, j1, j2, j3, j4⟩ := ih (by rw [Nat.add_assoc] at hs; omega)
        refine ⟨j, j1, by omega, j3, fun x x1 x2 => ?_⟩
        rcases Nat.lt_or_ge x (a + d) with hx | hx
        · exact j4 x x1 hx
        · rw [show x = a + d by omega]; exact hc
  have hab : a < b := by
    by_contra hc
    have : cnt T sa c b ≤ cnt T sa c a := Nat.count_monotone _ (by omega)
    omega
  obtain ⟨j, j1, j2, j3, j4⟩ := key (b - a) (by rw [show a + (b - a) = b by omega]; exact hlt)
  rw [show a + (b - a) = b by omega] at j2 j4
  refine ⟨j, j1, j2, symAt_eq h0 j3, j3, fun x x1 x2 e => j4 x x1 x2 (symAt_of_ne h1 e), ?_, lf_last h.text h.isSA hb j2 j3 (fun i i1 i2 => j4 i i1 i2)⟩
  by_contra hc
  have := (bwtAt_zero_iff h.text h.isSA (show j < T.length by omega)).2 (by omega)
  omega

/-- no occurrence of the symbol 1: it stands for the terminator in rle_string only -/
theorem SeqOK.cnt_one (h : SeqOK S f T sa) {i : Nat} (hi : i ≤ T.length) : cnt T sa 1 i = 0 := by
  rw [← count_bwtOf h.isSA 1 i hi, List.count_eq_zero]
  intro hm
  have := List.mem_of_mem_take hm
  rw [bwtOf_seq h.isSA] at this
  obtain ⟨j, hj, e⟩ := List.mem_map.1 this
  exact h.one (e ▸ bwtAt_mem h.isSA (List.mem_range.1 hj))

end

variable {T sa K : List Nat} {I : LegacyIndex}

/-- with `k` characters unread and a range that ends at `e`, the data lead to the value at `e` -/
def Holds (T sa : List Nat) (k e : Nat) (d : StepData (Nat × Nat)) : Prop :=
  ∃ j, j ≤ d.run.2 ∧ d.run.2 < T.length ∧ symAt T sa j = d.run.1 ∧ (∀ x, j < x → x ≤ d.run.2 → symAt T sa x ≠ d.run.1) ∧
    k ≤ d.step + 1 ∧ saAt sa e + (d.step + 1 - k) = saAt sa j

namespace OK
variable (h : I.OK T sa K)
include h

theorem update_holds {a b c k : Nat} {d : StepData (Nat × Nat)} (h0 : c ≠ 0) (h1 : c ≠ 1) (hb : b ≤ T.length)
    (hlt : cnt T sa c a < cnt T sa c b) (hh : Holds T sa (k+1) (b-1) d) :
    ∃ d', I.update (a, b-1) (inclusive (cumC T c + cnt T sa c a) (cumC T c + cnt T sa c b)) c k d = some d' ∧
      Holds T sa k (cumC T c + cnt T sa c b - 1) d' := by
  obtain ⟨j, j1, j2, j3, j3', j4, j5, j6⟩ := h.seq.last_occ h0 h1 hb hlt
  have hjn : j < T.length := by omega
  have hsj := sa_lf_of_pos h.seq.isSA hjn j5
  have hnew : Holds T sa k (cumC T c + cnt T sa c b - 1) { step := k, run := (c, b-1) } := by
    refine ⟨j, by dsimp only; omega, by dsimp only; omega, j3, fun x x1 x2 => j4 x x1 (by dsimp only at x2; omega), by dsimp only; omega, ?_⟩
    rw [show cumC T c + cnt T sa c b - 1 = lfAt T sa j by omega, hsj]
    dsimp only; omega
  unfold LegacyIndex.update
  dsimp only
  by_cases hz : d.step = 0
  · rw [if_pos hz]; exact ⟨_, rfl, hnew⟩
  · have hi : inclusive (cumC T c + cnt T sa c a) (cumC T c + cnt T sa c b) = (cumC T c + cnt T sa c a, cumC T c + cnt T sa c b - 1) := by
      rw [inclusive, if_pos (by omega)]
    rw [if_neg hz, hi, if_neg (by dsimp only; omega), h.seq.access (by omega)]
    simp only [Option.bind_eq_bind, Option.bind_some]
    by_cases he : symAt T sa (b-1) = c
    · rw [if_pos he]
      refine ⟨d, rfl, ?_⟩
      have hjb : j = b - 1 := by
        by_contra hc
        exact j4 (b-1) (by omega) (by omega) he
      obtain ⟨i, i1, i2, i3, i4, i5, i6⟩ := hh
      refine ⟨i, i1, i2, i3, i4, by omega, ?_⟩
      rw [show cumC T c + cnt T sa c b - 1 = lfAt T sa j by omega, hsj]
      rw [← hjb] at i6
      omega
    · rw [if_neg he]; exact ⟨_, rfl, hnew⟩

omit h in
/-- the update functor never fails on an empty step -/
theorem update_empty {a b c k : Nat} {d : StepData (Nat × Nat)} : ∃ d', I.update (a, b) (1, 0) c k d = some d' := by
  unfold LegacyIndex.update
  dsimp only
  by_cases hz : d.step = 0
  · exact ⟨_, by rw [if_pos hz]⟩
  · exact ⟨d, by rw [if_neg hz, if_pos (by omega)]⟩

theorem loop_eq (g : Nat × Nat → Nat → Option (List Nat)) (l : List Nat) : ∀ (Q : List Nat) (a b : Nat) (d : StepData (Nat × Nat)),
    (∀ c ∈ l, c ≠ 0 ∧ c < 256) → a < b → IsRange Q T sa a b → Holds T sa l.length (b-1) d →
    ∃ a' b' d', (I.functors g).locateLoop l (a, b-1) d = some (inclusive a' b', d') ∧ (I.functors g).countLoop l (a, b-1) = some (inclusive a' b') ∧
      IsRange (l.reverse ++ Q) T sa a' b' ∧ (a' < b' → Holds T sa 0 (b'-1) d') := by
  induction l with
  | nil =>
    intro Q a b d _ hab hr hh
    exact ⟨a, b, d, by rw [inclusive, if_pos hab]; rfl, by rw [inclusive, if_pos hab]; rfl, hr, fun _ => hh⟩
  | cons c l ih =>
    intro Q a b d hl hab hr hh
    obtain ⟨h0, hc⟩ := hl c (by simp)
    have hb := hr.2.1
    have hlf : I.lf (a, b-1) c = _ := h.seq.lf_eq h0 hc (Nat.le_of_lt hab) hb (by omega)
    have hstep := backward_step h.seq.text h.seq.isSA h0 hr
    change IsRange (c :: Q) T sa (cumC T c + cnt T sa c a) (cumC T c + cnt T sa c b) at hstep
    have hne : (I.functors g).isEmpty (a, b-1) = false := by
      change decide (b - 1 < a) = false
      rw [decide_eq_false_iff_not]; omega
    rw [Functors.locateLoop, Functors.countLoop, hne]
    simp only [Bool.false_eq_true, if_false, show (I.functors g).lf = I.lf from rfl, show (I.functors g).getSymbol c = c from rfl,
      show (I.functors g).update = I.update from rfl, show (I.functors g).toRange = fun r => r from rfl, hlf, Option.bind_eq_bind, Option.bind_some]
    by_cases hlt : cnt T sa c a < cnt T sa c b
    · have h1 : c ≠ 1 := fun e => by rw [e, h.seq.cnt_one hb] at hlt; omega
      obtain ⟨d', e1, e2⟩ := h.update_holds (k := l.length) h0 h1 hb hlt hh
      obtain ⟨a', b', d'', f1, f2, f3, f4⟩ := ih (c :: Q) (cumC T c + cnt T sa c a) (cumC T c + cnt T sa c b) d'
        (fun x hx => hl x (by simp [hx])) (by omega) hstep e2
      have hi : inclusive (cumC T c + cnt T sa c a) (cumC T c + cnt T sa c b) = (cumC T c + cnt T sa c a, cumC T c + cnt T sa c b - 1) := by
        rw [inclusive, if_pos (by omega)]
      rw [e1, Option.bind_some, hi]
      exact ⟨a', b', d'', f1, f2, by rw [List.reverse_cons, List.append_assoc]; exact f3, f4⟩
    · have hi : inclusive (cumC T c + cnt T sa c a) (cumC T c + cnt T sa c b) = (1, 0) := by
        rw [inclusive, if_neg (by omega)]
      have heq : cnt T sa c a = cnt T sa c b := by
        have : cnt T sa c a ≤ cnt T sa c b := Nat.count_monotone _ (Nat.le_of_lt hab)
        omega
      rw [heq] at hstep
      obtain ⟨y, hy⟩ := isRange_append_empty h.seq.text h.seq.isSA l (c :: Q) _ (fun x hx => (hl x (by simp [hx])).1) hstep
      obtain ⟨d', e1⟩ := update_empty (I := I) (a := a) (b := b - 1) (c := c) (k := l.length) (d := d)
      rw [hi, e1, Option.bind_some]
      refine ⟨y, y, d', ?_, ?_, by rw [List.reverse_cons, List.append_assoc]; exact hy, fun h => by omega⟩
      · rw [inclusive, if_neg (Nat.lt_irrefl _)]
        cases l with
        | nil => rfl
        | cons x l => rfl
      · rw [inclusive, if_neg (Nat.lt_irrefl _)]
        cases l with
        | nil => rfl
        | cons x l => rfl

theorem toehold_eq {e : Nat} {d : StepData (Nat × Nat)} (he : e < T.length) (hh : Holds T sa 0 e d) : I.toehold d = some (saAt sa e) := by
  obtain ⟨j, j1, j2, j3, j4, -, j6⟩ := hh
  have hv := h.lastValueOf_eq j1 j2 j3 j4
  have hj := saAt_lt h.seq.isSA (show j < T.length by omega)
  have he2 := saAt_lt h.seq.isSA he
  rw [toehold, computeToehold, show d.run = (d.run.1, d.run.2) from rfl, hv]
  simp only [Option.bind_eq_bind, Option.bind_some, csub, h.seq.size, show d.step ≤ saAt sa j + T.length by omega, if_true,
    show 1 ≤ saAt sa j + T.length - d.step by omega, cmod, show T.length ≠ 0 by omega, if_false]
  rw [show saAt sa j + T.length - d.step - 1 = saAt sa e + T.length by omega, Nat.add_mod_right, Nat.mod_eq_of_lt he2]

/-- Count and Locate of a non-empty pattern, given a functor that reports all but the last value of a range -/
theorem search {g : Nat × Nat → Nat → Option (List Nat)}
    (hg : ∀ a b, 1 ≤ a → a ≤ b → b < T.length → g (a, b - 1) (saAt sa b) = some (down sa a (b - a)))
    {P : List Nat} (hne : P ≠ []) (hP : ∀ c ∈ P, c ≠ 0 ∧ c < 256) :
    ∃ a b, IsRange P T sa a b ∧ (I.functors g).count P = some (inclusive a b) ∧ (I.functors g).locate P = some (valuesDown sa a b) := by
  have hn := h.seq.text.pos
  have hlen : 0 < P.length := List.length_pos_iff.2 hne
  have hr := isRange_nil (T := T) h.seq.isSA
  have hinit : Holds T sa P.reverse.length (T.length - 1) ((I.functors g).initial (P.length - 1)) := by
    refine ⟨T.length - 1, ?_, ?_, ?_, ?_, ?_, ?_⟩
    · change T.length - 1 ≤ I.rle.size - 1; rw [h.seq.size]
    · change I.rle.size - 1 < T.length; rw [h.seq.size]; omega
    · exact h.lastSym.symm
    · intro x h1 h2; change x ≤ I.rle.size - 1 at h2; rw [h.seq.size] at h2; omega
    · change P.reverse.length ≤ P.length - 1 + 1; rw [List.length_reverse]; omega
    · change saAt sa (T.length - 1) + (P.length - 1 + 1 - P.reverse.length) = saAt sa (T.length - 1); rw [List.length_reverse]; omega
  obtain ⟨a, b, d, e1, e2, e3, e4⟩ := h.loop_eq g P.reverse [] 0 T.length _ (fun c hc => hP c (by simpa using hc)) hn hr hinit
  rw [List.append_nil, List.reverse_reverse] at e3
  refine ⟨a, b, e3, ?_, ?_⟩
  · rw [Functors.count]
    change ((I.functors g).countLoop P.reverse (0, I.rle.size - 1)).bind _ = _
    rw [h.seq.size, e2]; rfl
  · rw [Functors.locate]
    change ((I.functors g).locateLoop P.reverse (0, I.rle.size - 1) _).bind _ = _
    rw [h.seq.size, e1, Option.bind_some]
    dsimp only
    by_cases hab : a < b
    · have hpos := range_pos h.seq.text h.seq.isSA hne (fun c hc => (hP c hc).1) e3 hab
      have hb := e3.2.1
      have hemp : (I.functors g).isEmpty (a, b - 1) = false := by
        change decide (b - 1 < a) = false
        rw [decide_eq_false_iff_not]; omega
      rw [inclusive, if_pos hab, hemp]
      simp only [Bool.false_eq_true, if_false]
      change computeAllValues g I.toehold shrink (a, b-1) d = _
      rw [computeAllValues, h.toehold_eq (show b - 1 < T.length by omega) (e4 hab)]
      simp only [Option.bind_eq_bind, Option.bind_some, shrink, csub, show 1 ≤ b - 1 by omega, if_true]
      change (g (a, b - 1 - 1) (saAt sa (b - 1))).bind _ = _
      rw [hg a (b-1) hpos (by omega) (by omega), Option.bind_some]
      change some (saAt sa (b - 1) :: down sa a (b - 1 - a)) = some (down sa a (b - a))
      rw [show b - a = (b - 1 - a) + 1 by omega, down_succ, show a + (b - 1 - a) = b - 1 by omega]
    · have hab' : b - a = 0 := by omega
      rw [inclusive, if_neg hab, valuesDown, hab']
      rfl

theorem report_all {phi : Nat → Option (Nat × Bool)} (hphi : PhiOK T sa I.items.sr.s (keptOf T sa K) phi) (hv : PhiValid T sa phi)
    (a b : Nat) (h1 : 1 ≤ a) (hab : a ≤ b) (hb : b < T.length) : (I.closed phi).report (a, b - 1) (saAt sa b) = some (down sa a (b - a)) := by
  have hok := h.closedOK hphi
  rcases Nat.lt_or_eq_of_le hab with hlt | rfl
  · have := hok.report hv (a := a) (b := b - 1) h1 (by omega) (by omega)
    rw [show b - 1 + 1 = b by omega] at this
    exact this
  · rw [hok.report_empty (by omega) h1 hb, Nat.sub_self]; rfl

theorem simple_all (a b : Nat) (h1 : 1 ≤ a) (hab : a ≤ b) (hb : b < T.length) :
    (I.closed I.items.sr.base.phi).reportSimple (a, b - 1) (saAt sa b) = some (down sa a (b - a)) := by
  have hok := h.closedOK h.phi
  rcases Nat.lt_or_eq_of_le hab with hlt | rfl
  · have := hok.reportSimple (a := a) (b := b - 1) h1 (by omega) (by omega)
    rw [show b - 1 + 1 = b by omega] at this
    exact this
  · rw [ClosedPhi.reportSimple, if_pos (by dsimp only; omega), Nat.sub_self]; rfl

end OK

/-- rle_string takes the BWT of a text of bytes that does not use the byte 1 -/
theorem seq_builds (hT : IsText T) (hsa : IsSA T sa) (h1 : 1 ∉ T) (hs : ∀ c ∈ T, c < 255) {B : Nat} (hB : 1 ≤ B) :
    ∃ S, RleString.build (seq T sa) B = some S ∧ SeqOK S ((List.range 256).map (below T)) T sa := by
  have hne : RleString.build (seq T sa) B ≠ none := (c41_build _ _ hB (seq_lt hsa hs)).2 ⟨by
    intro e
    have := seq_length (T := T) hsa
    rw [e] at this
    have := hT.pos
    simp at *; omega, seq_nonzero⟩
  obtain ⟨S, hS⟩ := Option.ne_none_iff_exists'.1 hne
  exact ⟨S, hS, hT, hsa, h1, hs, ⟨B, hB, hS⟩, rfl⟩

theorem build_ok (hT : IsText T) (hsa : IsSA T sa) (h1 : 1 ∉ T) (hs : ∀ c ∈ T, c < 255) (s : Nat) {B : Nat} (hB : 1 ≤ B) :
    ∃ I K, build T sa s B = some I ∧ I.OK T sa K ∧ I.items.sr.s = s := by
  obtain ⟨S, hS, hq⟩ := seq_builds hT hsa h1 hs hB
  obtain ⟨J, T', K, V, hJ, ok, hsr, hc⟩ := SrIndexValid.build_ok hT hsa s
  have hn := hT.pos
  refine ⟨{ rle := S, f := (List.range 256).map (below T), lastSym := symAt T sa (T.length - 1), items := J }, K, ?_, ?_, hsr⟩
  · rw [build, hJ]
    change Option.bind (RleString.build (seq T sa) B) _ = _
    rw [hS]
    simp only [Option.bind_some, Option.bind_eq_bind, csub, hq.size, show 1 ≤ T.length by omega, if_true,
      hq.access (show T.length - 1 < T.length by omega)]
    rfl
  · have hnr := hc.nrun_eq hT hsa
    have htl := hc.tl_eq hT hsa
    constructor
    · exact hq
    · rfl
    · exact ok.sr.sorted
    · intro k hk; rw [← hnr]; exact ok.sr.lt k hk
    · dsimp only; rw [ok.sr.samples]
      apply List.map_congr_left
      intro k _
      rw [hc.pv_eq, htl]
    · dsimp only; rw [ok.sr.samplesIdx, hnr]
    · obtain ⟨k, hk, e⟩ := ok.sr.zero
      exact ⟨k, hk, by rw [← htl]; exact e⟩
    · exact hc.phiOK hT hsa ok.sr.phiOK
    · exact hc.phiOK hT hsa ok.phiOK_mark
    · exact hc.phiOK hT hsa ok.phiOK_area
    · exact hc.phiValid ok.phiValid_mark
    · exact hc.phiValid ok.phiValid_area

end LegacyIndex

namespace LegacyRIndex
open LegacyIndex

variable {T sa : List Nat} {I : LegacyRIndex}

/-- what the parts of a built index hold -/
structure OK (I : LegacyRIndex) (T sa : List Nat) : Prop where
  seq : SeqOK I.rle I.f T sa
  samples : I.items.samples = tailPos T sa
  phi : ∀ i, 1 ≤ i → i < T.length → I.items.phi (saAt sa i) = some (saAt sa (i-1), true)
  final : I.finalValue = pv T sa (T.length - 1) + 1

namespace OK
variable (h : I.OK T sa)
include h

/-- the value GetLastValue takes from a run that ends inside the range -/
theorem sampleAt_eq {j : Nat} (hj : j + 1 < T.length) (hne : bwtAt T sa j ≠ bwtAt T sa (j+1)) : I.sampleAt j = some (some (pv T sa j)) := by
  have ht : TailAt T sa j := by
    rw [tailAt_iff]
    obtain ⟨k, hk, k1, k2⟩ := run_find (sa := sa) (show j < T.length by omega)
    refine ⟨k, hk, ?_⟩
    by_contra hc
    exact hne ((bwt_run hk k1 k2).trans (bwt_run hk (by omega) (by omega)).symm)
  obtain ⟨k, hk, rfl⟩ := tailAt_iff.1 ht
  rw [LegacyRIndex.sampleAt, h.seq.runOf hk (hd_le_tl hk) (Nat.le_refl _)]
  simp only [Option.bind_eq_bind, Option.bind_some, ne_eq, not_true_eq_false, if_false, h.samples, tailPos_get hk]
  rfl

/-- GetLastValue on a step with occurrences -/
theorem lastValue_eq {a b c x : Nat} (h0 : c ≠ 0) (h1 : c ≠ 1) (hc : c < 256) (hb : b ≤ T.length) (hlt : cnt T sa c a < cnt T sa c b)
    (hx : 0 < x) :
    I.lastValue (a, b-1) (cumC T c + cnt T sa c a, cumC T c + cnt T sa c b - 1) c (some x) =
      some (some (if bwtAt T sa (b-1) = c then x - 1 else saAt sa (cumC T c + cnt T sa c b - 1))) := by
  obtain ⟨j, j1, j2, j3, j3', j4, j5, j6⟩ := h.seq.last_occ h0 h1 hb hlt
  have hsj := sa_lf_of_pos h.seq.isSA (show j < T.length by omega) j5
  rw [LegacyRIndex.lastValue.eq_def, if_neg (by dsimp only; omega), h.seq.access (by dsimp only; omega)]
  simp only [Option.bind_eq_bind, Option.bind_some]
  by_cases he : symAt T sa (b-1) = c
  · rw [if_pos he, if_pos (symAt_of_ne h1 he)]
    simp [assertC, hx]
  · have he' : bwtAt T sa (b-1) ≠ c := fun e => he (symAt_eq h0 e)
    have hjb : j < b - 1 := by
      rcases Nat.lt_or_ge j (b-1) with g | g
      · exact g
      · rw [show j = b - 1 by omega] at j3; exact absurd j3 he
    have hr : scnt T sa c (b-1) = scnt T sa c j + 1 := by
      rw [h.seq.scnt_between (i := j+1) (j := b-1) (by omega) (by omega) (fun x x1 x2 => j4 x (by omega) (by omega)), h.seq.scnt_succ (by omega), if_pos j3]
    have hsamp := h.sampleAt_eq (j := j) (by omega) (fun e => j4 (j+1) (by omega) (by omega) (symAt_eq h0 (by rw [← e]; exact j3')))
    rw [if_neg he, if_neg he']
    simp only [h.seq.rank (show b - 1 ≤ T.length by omega) hc, hr, Option.bind_some, assertC, Nat.succ_pos, decide_true, if_true, Nat.add_sub_cancel,
      h.seq.select (show j < T.length by omega) j3, j1, hjb, and_self, hsamp]
    rw [show cumC T c + cnt T sa c b - 1 = lfAt T sa j by omega, hsj, pv_of_pos h.seq.isSA (by omega) j5]

omit h in
theorem lastValue_empty (r : Nat × Nat) (c : Nat) (v : Option Nat) : I.lastValue r (1, 0) c v = some v := by
  rw [LegacyRIndex.lastValue.eq_def, if_pos (by dsimp only; omega)]

/-- the search loop for an update functor `upd` that takes `Pre` to `Post` -/
theorem loop_eq {F : Functors (Nat × Nat) (Nat × Nat) (Option Nat)} (hlf : F.lf = I.lf) (hsym : F.getSymbol = fun c => c)
    (hto : F.toRange = fun r => r) (hem : F.isEmpty = fun r => decide (r.2 < r.1))
    {Pre Post : Nat → Option Nat → Prop} (himp : ∀ e v, Post e v → Pre e v)
    (hstep : ∀ a b c k v, c ≠ 0 → c ≠ 1 → c < 256 → b ≤ T.length → cnt T sa c a < cnt T sa c b → Pre (b-1) v →
      ∃ v', F.update (a, b-1) (cumC T c + cnt T sa c a, cumC T c + cnt T sa c b - 1) c k v = some v' ∧ Post (cumC T c + cnt T sa c b - 1) v')
    (hupe : ∀ r c k v, ∃ v', F.update r (1, 0) c k v = some v') (l : List Nat) :
    ∀ (Q : List Nat) (a b : Nat) (d : Option Nat), (∀ c ∈ l, c ≠ 0 ∧ c < 256) → a < b → IsRange Q T sa a b → Pre (b-1) d → (l = [] → Post (b-1) d) →
    ∃ a' b' d', F.locateLoop l (a, b-1) d = some (inclusive a' b', d') ∧ F.countLoop l (a, b-1) = some (inclusive a' b') ∧
      IsRange (l.reverse ++ Q) T sa a' b' ∧ (a' < b' → Post (b'-1) d') := by
  induction l with
  | nil =>
    intro Q a b d _ hab hr _ hp
    exact ⟨a, b, d, by rw [inclusive, if_pos hab]; rfl, by rw [inclusive, if_pos hab]; rfl, hr, fun _ => hp rfl⟩
  | cons c l ih =>
    intro Q a b d hl hab hr hp _
    obtain ⟨h0, hc⟩ := hl c (by simp)
    have hb := hr.2.1
    have hlfe : I.lf (a, b-1) c = _ := h.seq.lf_eq h0 hc (Nat.le_of_lt hab) hb (by omega)
    have hst := backward_step h.seq.text h.seq.isSA h0 hr
    change IsRange (c :: Q) T sa (cumC T c + cnt T sa c a) (cumC T c + cnt T sa c b) at hst
    have hne : F.isEmpty (a, b-1) = false := by
      rw [hem]; dsimp only
      rw [decide_eq_false_iff_not]; omega
    rw [Functors.locateLoop, Functors.countLoop, hne]
    simp only [Bool.false_eq_true, if_false, hlf, hsym, hto, hlfe, Option.bind_eq_bind, Option.bind_some]
    by_cases hlt : cnt T sa c a < cnt T sa c b
    · have h1 : c ≠ 1 := fun e => by rw [e, h.seq.cnt_one hb] at hlt; omega
      obtain ⟨d', e1, e2⟩ := hstep a b c l.length d h0 h1 hc hb hlt hp
      obtain ⟨a', b', d'', f1, f2, f3, f4⟩ := ih (c :: Q) (cumC T c + cnt T sa c a) (cumC T c + cnt T sa c b) d'
        (fun x hx => hl x (by simp [hx])) (by omega) hst (himp _ _ e2) (fun _ => e2)
      have hi : inclusive (cumC T c + cnt T sa c a) (cumC T c + cnt T sa c b) = (cumC T c + cnt T sa c a, cumC T c + cnt T sa c b - 1) := by
        rw [inclusive, if_pos (by omega)]
      rw [hi, e1, Option.bind_some]
      exact ⟨a', b', d'', f1, f2, by rw [List.reverse_cons, List.append_assoc]; exact f3, f4⟩
    · have hi : inclusive (cumC T c + cnt T sa c a) (cumC T c + cnt T sa c b) = (1, 0) := by
        rw [inclusive, if_neg (by omega)]
      have heq : cnt T sa c a = cnt T sa c b := by
        have : cnt T sa c a ≤ cnt T sa c b := Nat.count_monotone _ (Nat.le_of_lt hab)
        omega
      rw [heq] at hst
      obtain ⟨y, hy⟩ := isRange_append_empty h.seq.text h.seq.isSA l (c :: Q) _ (fun x hx => (hl x (by simp [hx])).1) hst
      obtain ⟨d', e1⟩ := hupe (a, b-1) c l.length d
      rw [hi, e1, Option.bind_some]
      refine ⟨y, y, d', ?_, ?_, by rw [List.reverse_cons, List.append_assoc]; exact hy, fun h => by omega⟩
      · rw [inclusive, if_neg (Nat.lt_irrefl _)]
        cases l with
        | nil => rfl
        | cons x l => rw [Functors.locateLoop, hem]; rfl
      · rw [inclusive, if_neg (Nat.lt_irrefl _)]
        cases l with
        | nil => rfl
        | cons x l => rw [Functors.countLoop, hem]; rfl

theorem allValues_eq (len : Nat) : ∀ b, len ≤ b → b < T.length → I.allValues len (saAt sa b) = some (down sa (b + 1 - len) len) := by
  induction len with
  | zero => intro b _ _; rfl
  | succ len ih =>
    intro b hl hb
    rw [allValues, h.phi b (by omega) hb]
    simp only [Option.bind_eq_bind, Option.bind_some]
    rw [ih (b-1) (by omega) (by omega), down_succ, show b + 1 - (len + 1) = b - 1 + 1 - len by omega, show b - 1 + 1 - len + len = b by omega]
    rfl

/-- the search with the result of GetLastValue kept: exact -/
theorem keeping_search {P : List Nat} (hne : P ≠ []) (hP : ∀ c ∈ P, c ≠ 0 ∧ c < 256) :
    ∃ a b, IsRange P T sa a b ∧ I.keeping.count P = some (inclusive a b) ∧ I.keeping.locate P = some (valuesDown sa a b) := by
  have hn := h.seq.text.pos
  have hr := isRange_nil (T := T) h.seq.isSA
  obtain ⟨a, b, d, e1, e2, e3, e4⟩ := h.loop_eq (F := I.keeping) rfl rfl rfl rfl
    (Pre := fun e v => e < T.length ∧ ∃ x, v = some x ∧ (0 < saAt sa e → x = saAt sa e))
    (Post := fun e v => e < T.length ∧ v = some (saAt sa e)) (fun e v hp => ⟨hp.1, _, hp.2, fun _ => rfl⟩)
    (by
      rintro a b c k v h0 h1 hc hb hlt ⟨hbn, x, rfl, hx⟩
      obtain ⟨j, j1, j2, j3, j3', j4, j5, j6⟩ := h.seq.last_occ h0 h1 hb hlt
      have hlt2 := lfAt_lt (T := T) h.seq.isSA (show j < T.length by omega)
      refine ⟨some (saAt sa (cumC T c + cnt T sa c b - 1)), ?_, by omega, rfl⟩
      change I.lastValue (a, b-1) _ c (some x) = _
      by_cases he : bwtAt T sa (b-1) = c
      · have hpos : 0 < saAt sa (b-1) := by
          by_contra hz
          have := (bwtAt_zero_iff h.seq.text h.seq.isSA hbn).2 (by omega)
          omega
        have hxe := hx hpos
        rw [h.lastValue_eq h0 h1 hc hb hlt (by omega), if_pos he, hxe]
        have hjb : j = b - 1 := by
          by_contra hne
          exact j4 (b-1) (by omega) (by omega) (symAt_eq h0 he)
        rw [show cumC T c + cnt T sa c b - 1 = lfAt T sa j by omega, sa_lf_of_pos h.seq.isSA (by omega) j5, hjb]
      · -- the value is not read
        have key : ∀ x y, I.lastValue (a, b-1) (cumC T c + cnt T sa c a, cumC T c + cnt T sa c b - 1) c (some x) =
            I.lastValue (a, b-1) (cumC T c + cnt T sa c a, cumC T c + cnt T sa c b - 1) c (some y) := by
          intro x y
          have hs : symAt T sa (b-1) ≠ c := fun e => he (symAt_of_ne h1 e)
          rw [LegacyRIndex.lastValue.eq_def, LegacyRIndex.lastValue.eq_def, if_neg (by dsimp only; omega), if_neg (by dsimp only; omega), h.seq.access (by dsimp only; omega)]
          simp only [Option.bind_eq_bind, Option.bind_some, if_neg hs]
        rw [key x 1, h.lastValue_eq h0 h1 hc hb hlt (by omega), if_neg he])
    (fun r c k v => ⟨v, lastValue_empty (I := I) r c v⟩) P.reverse [] 0 T.length (some I.finalValue)
    (fun c hc => hP c (by simpa using hc)) hn hr ⟨by omega, _, rfl, fun hpos => by
      rw [h.final, pv_of_pos h.seq.isSA (by omega) hpos]; omega⟩ (fun e => absurd e (by simpa using hne))
  rw [List.append_nil, List.reverse_reverse] at e3
  refine ⟨a, b, e3, ?_, ?_⟩
  · rw [Functors.count]
    change (I.keeping.countLoop P.reverse (0, I.rle.size - 1)).bind _ = _
    rw [h.seq.size, e2]; rfl
  · rw [Functors.locate]
    change (I.keeping.locateLoop P.reverse (0, I.rle.size - 1) (some I.finalValue)).bind _ = _
    rw [h.seq.size, e1, Option.bind_some]
    dsimp only
    by_cases hab : a < b
    · have hpos := range_pos h.seq.text h.seq.isSA hne (fun c hc => (hP c hc).1) e3 hab
      have hb := e3.2.1
      have hemp : I.keeping.isEmpty (a, b - 1) = false := by
        change decide (b - 1 < a) = false
        rw [decide_eq_false_iff_not]; omega
      rw [inclusive, if_pos hab, hemp, (e4 hab).2]
      simp only [Bool.false_eq_true, if_false]
      change I.allValues (b - 1 + 1 - a) (saAt sa (b-1)) = _
      rw [h.allValues_eq (b - 1 + 1 - a) (b-1) (by omega) (by omega), show b - 1 + 1 - (b - 1 + 1 - a) = a by omega, show b - 1 + 1 - a = b - a by omega]
      rfl
    · have hab' : b - a = 0 := by omega
      rw [inclusive, if_neg hab, valuesDown, hab']
      rfl

/-- the search as RIndexBase runs it: the value never changes, so the last entries of the suffix array come out -/
theorem dropped_search {P : List Nat} (hne : P ≠ []) (hP : ∀ c ∈ P, c ≠ 0 ∧ c < 256) (hz : 0 < saAt sa (T.length - 1)) :
    ∃ a b, IsRange P T sa a b ∧ I.functors.count P = some (inclusive a b) ∧
      I.functors.locate P = some (valuesDown sa (T.length - (b - a)) T.length) := by
  have hn := h.seq.text.pos
  have hr := isRange_nil (T := T) h.seq.isSA
  obtain ⟨a, b, d, e1, e2, e3, e4⟩ := h.loop_eq (F := I.functors) rfl rfl rfl rfl
    (Pre := fun _ v => v = some I.finalValue)
    (Post := fun _ v => v = some I.finalValue) (fun e v hp => hp)
    (by
      rintro a b c k v h0 h1 hc hb hlt rfl
      refine ⟨some I.finalValue, ?_, rfl⟩
      change (I.lastValue (a, b-1) _ c (some I.finalValue)).map _ = _
      rw [h.lastValue_eq h0 h1 hc hb hlt (by rw [h.final]; omega)]; rfl)
    (fun r c k v => ⟨v, by
      change (I.lastValue r (1, 0) c v).map (fun _ => v) = some v
      rw [lastValue_empty]; rfl⟩) P.reverse [] 0 T.length (some I.finalValue)
    (fun c hc => hP c (by simpa using hc)) hn hr rfl (fun e => absurd e (by simpa using hne))
  rw [List.append_nil, List.reverse_reverse] at e3
  refine ⟨a, b, e3, ?_, ?_⟩
  · rw [Functors.count]
    change (I.functors.countLoop P.reverse (0, I.rle.size - 1)).bind _ = _
    rw [h.seq.size, e2]; rfl
  · rw [Functors.locate]
    change (I.functors.locateLoop P.reverse (0, I.rle.size - 1) (some I.finalValue)).bind _ = _
    rw [h.seq.size, e1, Option.bind_some]
    dsimp only
    by_cases hab : a < b
    · have hpos := range_pos h.seq.text h.seq.isSA hne (fun c hc => (hP c hc).1) e3 hab
      have hb := e3.2.1
      have hemp : I.functors.isEmpty (a, b - 1) = false := by
        change decide (b - 1 < a) = false
        rw [decide_eq_false_iff_not]; omega
      have hfin : I.finalValue = saAt sa (T.length - 1) := by rw [h.final, pv_of_pos h.seq.isSA (by omega) hz]; omega
      rw [inclusive, if_pos hab, hemp, e4 hab]
      simp only [Bool.false_eq_true, if_false]
      change I.allValues (b - 1 + 1 - a) I.finalValue = _
      rw [hfin, h.allValues_eq (b - 1 + 1 - a) (T.length-1) (by omega) (by omega), show b - 1 + 1 - a = b - a by omega,
        show T.length - 1 + 1 - (b - a) = T.length - (b - a) by omega]
      have : T.length - (T.length - (b - a)) = b - a := by omega
      rw [valuesDown, this]; rfl
    · have hab' : b - a = 0 := by omega
      rw [inclusive, if_neg hab, valuesDown, hab', Nat.sub_zero, Nat.sub_self]
      rfl

end OK

theorem build_ok (hT : IsText T) (hsa : IsSA T sa) (h1 : 1 ∉ T) (hs : ∀ c ∈ T, c < 255) {B : Nat} (hB : 1 ≤ B) :
    ∃ I, build T sa B = some I ∧ I.OK T sa := by
  obtain ⟨S, hS, hq⟩ := seq_builds hT hsa h1 hs hB
  obtain ⟨J, T', hJ, ok, hc⟩ := RIndex.build_ok hT hsa
  have hn := hT.pos
  have hnr := hc.nrun_eq hT hsa
  have htl := hc.tl_eq hT hsa
  have hsamp : J.samples = tailPos T sa := by
    rw [ok.samples, tailPos, tailPos, hnr]
    apply List.map_congr_left
    intro k _
    rw [hc.pv_eq, htl]
  have hpos := nrun_pos (sa := sa) hn
  refine ⟨{ rle := S, f := (List.range 256).map (below T), items := J, finalValue := pv T sa (T.length - 1) + 1 }, ?_, hq, hsamp, ?_, rfl⟩
  · rw [build, hJ]
    change Option.bind (RleString.build (LegacyIndex.seq T sa) B) _ = _
    rw [hS]
    simp only [Option.bind_some, Option.bind_eq_bind, csub, hsamp, tailPos_length, show 1 ≤ nrun T sa by omega, if_true,
      tailPos_get (show nrun T sa - 1 < nrun T sa by omega), tl_last hn]
    rfl
  · intro i h1 hi
    exact ok.phi_eq h1 (by rw [hc.len]; exact hi)

end LegacyRIndex
end Sri
