import Verif.Proofs.ClosedRange
import Verif.Proofs.SrValid
import Verif.Proofs.Bwt
import Verif.Props.RleString
/-! # The parts of an index over inclusive ranges -/
namespace Sri
set_option autoImplicit false

section
variable {T sa T' : List Nat} {a : Alphabet}

theorem rstart_map_fst (f : Nat → Nat) (R : List (Nat × Nat)) (k : Nat) : rstart (R.map (fun q => (f q.1, q.2))) k = rstart R k := by
  rw [rstart, rstart, ← List.map_take, List.map_map]; rfl

theorem Compact.runs (hc : Compact T sa a T') (hT : IsText T) (hsa : IsSA T sa) :
    runsOf T' sa = (runsOf T sa).map (fun q => (a.char2comp q.1, q.2)) := by
  rw [runsOf, runsOf, ← rle_map_inj, List.map_map, hc.len]
  · congr 1
    apply List.map_congr_left
    intro i _
    rw [hc.eq, bwtAt_map _ hT.pos]; rfl
  · intro c h1 d h2 he
    obtain ⟨i, hi, rfl⟩ := List.mem_map.1 h1
    obtain ⟨j, hj, rfl⟩ := List.mem_map.1 h2
    exact hc.inj (bwtAt_mem hsa (List.mem_range.1 hi)) (bwtAt_mem hsa (List.mem_range.1 hj)) he

theorem Compact.nrun_eq (hc : Compact T sa a T') (hT : IsText T) (hsa : IsSA T sa) : nrun T' sa = nrun T sa := by
  rw [nrun, hc.runs hT hsa, List.length_map]; rfl

theorem Compact.hd_eq (hc : Compact T sa a T') (hT : IsText T) (hsa : IsSA T sa) (k : Nat) : hd T' sa k = hd T sa k := by
  rw [hd, hc.runs hT hsa, rstart_map_fst]; rfl

theorem Compact.tl_eq (hc : Compact T sa a T') (hT : IsText T) (hsa : IsSA T sa) (k : Nat) : tl T' sa k = tl T sa k := by
  rw [tl, hc.runs hT hsa, rstart_map_fst]; rfl

theorem Compact.lf_eq (hc : Compact T sa a T') : lfAt T' sa = lfAt T sa := by
  funext i; rw [lfAt, lfAt, hc.len]

theorem Compact.lfIt_eq (hc : Compact T sa a T') (d i : Nat) : lfIt T' sa d i = lfIt T sa d i := by
  rw [lfIt, lfIt, hc.lf_eq]

theorem Compact.pv_eq (hc : Compact T sa a T') (i : Nat) : pv T' sa i = pv T sa i := by rw [pv, pv, hc.len]

theorem Compact.kept_eq (hc : Compact T sa a T') (hT : IsText T) (hsa : IsSA T sa) (K : List Nat) : keptOf T' sa K = keptOf T sa K := by
  funext y; simp only [keptOf, hc.tl_eq hT hsa]

theorem Compact.phiOK (hc : Compact T sa a T') (hT : IsText T) (hsa : IsSA T sa) {K : List Nat} {s : Nat} {phi : Nat → Option (Nat × Bool)}
    (h : PhiOK T' sa s (keptOf T' sa K) phi) : PhiOK T sa s (keptOf T sa K) phi := by
  intro i h1 hi
  have := h i h1 (by rw [hc.len]; exact hi)
  simp only [hc.kept_eq hT hsa, hc.lfIt_eq] at this
  exact this

theorem Compact.phiValid (hc : Compact T sa a T') {phi : Nat → Option (Nat × Bool)} (h : PhiValid T' sa phi) : PhiValid T sa phi :=
  fun i v h1 hi => h i v h1 (by rw [hc.len]; exact hi)

end

namespace LegacyIndex
open Rep

variable {T sa K : List Nat} {I : LegacyIndex}

theorem write_inj {c d : Nat} (h1 : c ≠ 1) (h2 : d ≠ 1) (h : writeTerminator c = writeTerminator d) : c = d := by
  unfold writeTerminator at h
  split at h <;> split at h <;> omega

/-- the sequence rle_string is built from -/
def seq (T sa : List Nat) : List Nat := (bwtOf T sa).map writeTerminator

/-- its symbol at `i` -/
def symAt (T sa : List Nat) (i : Nat) : Nat := writeTerminator (bwtAt T sa i)

/-- rle_string of the BWT with the terminator written as 1, and the F array -/
structure SeqOK (rle : RleString) (f T sa : List Nat) : Prop where
  text : IsText T
  isSA : IsSA T sa
  one : 1 ∉ T
  small : ∀ c ∈ T, c < 255
  rle : ∃ B, 1 ≤ B ∧ RleString.build (seq T sa) B = some rle
  f : f = (List.range 256).map (below T)

theorem seq_eq (hsa : IsSA T sa) : seq T sa = (List.range T.length).map (symAt T sa) := by
  rw [seq, bwtOf_seq hsa, List.map_map]; rfl

theorem seq_length (hsa : IsSA T sa) : (seq T sa).length = T.length := by rw [seq_eq hsa]; simp

theorem seq_get (hsa : IsSA T sa) {i : Nat} (hi : i < T.length) : (seq T sa)[i]? = some (symAt T sa i) := by
  rw [seq_eq hsa, List.getElem?_map, List.getElem?_range hi]; rfl

theorem symAt_lt (hsa : IsSA T sa) (hs : ∀ c ∈ T, c < 255) {i : Nat} (hi : i < T.length) : symAt T sa i < 255 := by
  have := hs _ (bwtAt_mem hsa hi)
  unfold symAt writeTerminator; split <;> omega

theorem seq_lt (hsa : IsSA T sa) (hs : ∀ c ∈ T, c < 255) : ∀ c ∈ seq T sa, c < 256 := by
  intro c hc
  rw [seq_eq hsa] at hc
  obtain ⟨i, hi, rfl⟩ := List.mem_map.1 hc
  have := symAt_lt hsa hs (List.mem_range.1 hi); omega

theorem seq_nonzero : 0 ∉ seq T sa := by
  intro h
  obtain ⟨c, -, hc⟩ := List.mem_map.1 h
  unfold writeTerminator at hc; split at hc <;> omega

theorem seq_rle (hsa : IsSA T sa) (h1 : 1 ∉ T) : Sri.rle (seq T sa) = (runsOf T sa).map (fun q => (writeTerminator q.1, q.2)) := by
  rw [seq, bwtOf_seq hsa, rle_map_inj]; rfl
  intro c hc d hd he
  obtain ⟨i, hi, rfl⟩ := List.mem_map.1 hc
  obtain ⟨j, hj, rfl⟩ := List.mem_map.1 hd
  have m1 := bwtAt_mem hsa (List.mem_range.1 hi)
  have m2 := bwtAt_mem hsa (List.mem_range.1 hj)
  exact write_inj (fun h => h1 (h ▸ m1)) (fun h => h1 (h ▸ m2)) he

/-- occurrences of `c` in the first `i` symbols of the sequence -/
def scnt (T sa : List Nat) (c i : Nat) : Nat := ((seq T sa).take i).count c

theorem scnt_eq (hsa : IsSA T sa) {c : Nat} (h0 : c ≠ 0) (h1 : c ≠ 1) (i : Nat) (hi : i ≤ T.length) : scnt T sa c i = cnt T sa c i := by
  rw [← count_bwtOf hsa c i hi, scnt, seq, ← List.map_take, List.count_eq_countP, List.countP_map, List.count_eq_countP]
  apply List.countP_congr
  intro x _
  simp only [Function.comp, writeTerminator]
  split <;> simp <;> omega

namespace SeqOK
variable {S : RleString} {f : List Nat} (h : SeqOK S f T sa)
include h

theorem size : S.size = T.length := by
  obtain ⟨B, hB, hb⟩ := h.rle
  rw [(c41_sequence _ _ _ hB (seq_lt h.isSA h.small) hb).1, seq_length h.isSA]

theorem access {i : Nat} (hi : i < T.length) : S.access i = some (symAt T sa i) := by
  obtain ⟨B, hB, hb⟩ := h.rle
  rw [(c41_sequence _ _ _ hB (seq_lt h.isSA h.small) hb).2.2.2.1 i (by rw [seq_length h.isSA]; exact hi), ← seq_get h.isSA hi,
    List.getElem?_eq_getElem]

theorem rank {i c : Nat} (hi : i ≤ T.length) (hc : c < 256) : S.rank i c = some (scnt T sa c i) := by
  obtain ⟨B, hB, hb⟩ := h.rle
  exact (c41_sequence _ _ _ hB (seq_lt h.isSA h.small) hb).2.2.2.2.2.1 i c (by rw [seq_length h.isSA]; exact hi) hc

theorem scnt_succ {i c : Nat} (hi : i < T.length) : scnt T sa c (i+1) = scnt T sa c i + if symAt T sa i = c then 1 else 0 := by
  have hl := seq_length (T := T) (sa := sa) h.isSA
  have he := seq_get (T := T) (sa := sa) h.isSA hi
  rw [scnt, scnt, List.take_add_one, he, List.count_append]
  simp [List.count_singleton]

omit h in
theorem scnt_mono {i j c : Nat} (hij : i ≤ j) : scnt T sa c i ≤ scnt T sa c j := by
  apply List.Sublist.count_le
  exact List.take_sublist_take_left hij

/-- select finds the position with a given rank -/
theorem select {j c : Nat} (hj : j < T.length) (hc : symAt T sa j = c) : S.select (scnt T sa c j) c = some j := by
  obtain ⟨B, hB, hb⟩ := h.rle
  have hl := seq_length (T := T) (sa := sa) h.isSA
  have hs := h.scnt_succ (c := c) hj
  rw [if_pos hc] at hs
  have hm : scnt T sa c (j+1) ≤ (seq T sa).count c := (List.take_sublist _ _).count_le _
  obtain ⟨p, p1, p2, p3⟩ := (c41_sequence _ _ _ hB (seq_lt h.isSA h.small) hb).2.2.2.2.2.2 (scnt T sa c j) c (by omega)
  rw [p1]
  congr 1
  have hp : p < T.length := by rw [← hl]; exact (List.getElem?_eq_some_iff.1 p2).1
  have hps : symAt T sa p = c := by rw [seq_get h.isSA hp] at p2; simpa using p2
  have hs2 := h.scnt_succ (c := c) hp
  rw [if_pos hps] at hs2
  change scnt T sa c p = _ at p3
  rcases Nat.lt_trichotomy p j with hlt | heq | hgt
  · have := scnt_mono (T := T) (sa := sa) (c := c) (show p + 1 ≤ j by omega); omega
  · exact heq
  · have := scnt_mono (T := T) (sa := sa) (c := c) (show j + 1 ≤ p by omega); omega

theorem repB : RepB S ((runsOf T sa).map (fun q => (writeTerminator q.1, q.2))) := by
  obtain ⟨B, hB, hb⟩ := h.rle
  rw [← seq_rle h.isSA h.one]
  exact (built hB (seq_lt h.isSA h.small) hb).1

theorem runOf {i k : Nat} (hk : k < nrun T sa) (h1 : hd T sa k ≤ i) (h2 : i ≤ tl T sa k) : S.runOf i = some (k, tl T sa k) := by
  have hlt := RleBwt.rstart_bounds hk h2
  have := h.repB.runOf (i := i) (m := k) (by rw [List.length_map]; exact hk) (by rw [rstart_map_fst]; exact h1)
    (by rw [rstart_map_fst]; exact hlt)
  rw [this, rstart_map_fst]; rfl

/-- the F array -/
theorem f_get {c : Nat} (hc : c < 256) : f[c]? = some (cumC T c) := by
  rw [h.f, List.getElem?_map, List.getElem?_range hc]; rfl

theorem lf_eq {a b c : Nat} (h0 : c ≠ 0) (hc : c < 256) (hab : a ≤ b) (hb : b ≤ T.length) (hb1 : 1 ≤ b) :
    computeLF S.rank (fun c => f[c]?) (a, b - 1) c S.size (f.length - 1) = some (inclusive (cumC T c + cnt T sa c a) (cumC T c + cnt T sa c b)) := by
  have hlen : f.length - 1 = 255 := by rw [h.f]; simp
  rw [h.size, hlen]
  by_cases h1 : c = 1
  · subst h1
    have e1 : cumC T 2 = cumC T 1 := by
      have := below_succ T 1
      rw [List.count_eq_zero.2 h.one] at this; exact this
    have e2 : ∀ i, i ≤ T.length → cnt T sa 1 i = 0 := by
      intro i hi
      rw [← count_bwtOf h.isSA 1 i hi, List.count_eq_zero]
      intro hm
      have := List.mem_of_mem_take hm
      rw [bwtOf_seq h.isSA] at this
      obtain ⟨j, hj, e⟩ := List.mem_map.1 this
      exact h.one (e ▸ bwtAt_mem h.isSA (List.mem_range.1 hj))
    rw [e2 a (by omega), e2 b hb, computeLF, h.f_get (by omega)]
    simp only [Option.bind_eq_bind, Option.bind_some, Option.pure_def, show ¬ (1 = 255 ∧ cumC T 1 = T.length) by omega, if_false,
      h.f_get (show 1 + 1 < 256 by omega), show cumC T (1+1) ≤ cumC T 1 from Nat.le_of_eq e1, if_true, inclusive, Nat.lt_irrefl]
  · rw [← computeLF_eq h.text h.isSA (rank := fun i x => if x = c then S.rank i c else some (((bwtOf T sa).take i).count x))
      (f := fun x => f[x]?) (maxC := 255) ?_ (fun x hx => h.f_get (by omega)) ?_ (fun x hx => by have := h.small x hx; omega) (by omega)
      hab hb hb1]
    · simp only [computeLF, if_true]
    · intro i x hi hx
      split
      · next e => rw [e, h.rank hi hc, scnt_eq h.isSA h0 h1 i hi, count_bwtOf h.isSA c i hi]
      · rfl
    · intro hm
      have := h.small _ hm; omega

/-- LF of a range inside a run -/
theorem nav {k p q : Nat} (hk : k < nrun T sa) (h0 : sy T sa k ≠ 0) (h1 : hd T sa k ≤ p) (h2 : p ≤ q) (h3 : q ≤ tl T sa k) :
    computeLF S.rank (fun c => f[c]?) (p, q) (writeTerminator (sy T sa k)) S.size (f.length - 1) = some (lfAt T sa p, lfAt T sa p + (q - p)) := by
  have hq : q < T.length := Nat.lt_of_le_of_lt h3 (tl_lt hk)
  have hsym : bwtAt T sa p = sy T sa k := bwt_run hk h1 (by omega)
  have hlt : sy T sa k < 255 := by rw [← hsym]; exact h.small _ (bwtAt_mem h.isSA (by omega))
  have := h.lf_eq (a := p) (b := q + 1) h0 (by omega) (by omega) (by omega) (by omega)
  rw [Nat.add_sub_cancel] at this
  rw [writeTerminator, if_neg h0, this]
  have e1 := lf_formula h.text h.isSA (i := p) (by omega)
  have e2 := lf_last h.text h.isSA (y := q) (c := sy T sa k) (e := q + 1) (by omega) (by omega) (bwt_run hk (by omega) h3) (by intro i _ _; omega)
  have e3 := lf_block h.text h.isSA hk h1 (q - p) (by omega)
  rw [show p + (q - p) = q by omega] at e3
  rw [hsym] at e1
  change lfAt T sa p = cumC T (sy T sa k) + cnt T sa (sy T sa k) p at e1
  rw [← e1, ← e2, inclusive, if_pos (by omega), e3]; rfl

theorem split_ok {a b : Nat} (hab : a ≤ b) (hb : b < T.length) :
    ∃ l, S.breakInRuns a b = some l ∧ ClosedPieces T sa writeTerminator a (b+1) l.reverse := by
  obtain ⟨m, hm, m1, m2⟩ := run_find (sa := sa) (show a < T.length by omega)
  obtain ⟨e, he, e1, e2⟩ := run_find (sa := sa) hb
  have hR := h.repB
  obtain ⟨R, hRe⟩ : ∃ R, R = (runsOf T sa).map (fun q => (writeTerminator q.1, q.2)) := ⟨_, rfl⟩
  rw [← hRe] at hR
  have hst : ∀ k, rstart R k = hd T sa k := fun k => by rw [hRe, rstart_map_fst]; rfl
  have hlen : R.length = nrun T sa := by rw [hRe, List.length_map]; rfl
  have hbr := hR.breakInRuns (m := m) (e := e) hab (by omega) (by rw [hst]; exact m1) (by rw [hst, ← tl_succ hm]; omega) (by omega)
    (by rw [hst]; exact e1) (by rw [hst, ← tl_succ he]; omega)
  have hme : m ≤ e := by
    by_contra hc
    have := tl_succ he
    have := rstart_mono (runsOf T sa) (show e + 1 ≤ m by omega)
    change hd T sa (e+1) ≤ hd T sa m at this
    omega
  refine ⟨_, hbr, ?_⟩
  rw [← List.map_reverse]
  -- from the last run to the first
  have key : ∀ len x, 0 < len → m + len = x + 1 → x ≤ e → ∀ b', b' + 1 = min (b+1) (hd T sa (x+1)) →
      ClosedPieces T sa writeTerminator a (b'+1) (((List.range' m len).reverse.map (RepB.report R a b))) := by
    intro len
    induction len with
    | zero => intro x h0; omega
    | succ len ih =>
      intro x _ hx hxe b' hb'
      have hxn : x < nrun T sa := by omega
      have hts := tl_succ hxn
      have hht := hd_le_tl hxn
      rw [List.range'_concat, List.reverse_append, Nat.one_mul, show m + len = x by omega]
      simp only [List.reverse_singleton, List.singleton_append, List.map_cons, ClosedPieces]
      have hlast : (RepB.report R a b x).last = b' := by
        simp only [RepB.report, hst]; omega
      have hfirst : (RepB.report R a b x).first = max (hd T sa x) a := by
        simp only [RepB.report, hst]; omega
      have hc : (RepB.report R a b x).c = writeTerminator (sy T sa x) := by
        simp only [RepB.report, hRe, List.map_map, sy, List.getD_eq_getElem?_getD, List.getElem?_map]
        rw [List.getElem?_eq_getElem (show x < (runsOf T sa).length from hxn)]; rfl
      have hxe' : hd T sa x ≤ b := Nat.le_trans (rstart_mono (runsOf T sa) hxe) e1
      have hax : a ≤ tl T sa x := by
        rcases Nat.lt_or_eq_of_le (show m ≤ x by omega) with hlt | rfl
        · have := tl_strict hlt hxn; omega
        · exact m2
      refine ⟨by rw [hlast], ⟨x, ⟨hxn, hc, by rw [hfirst]; omega, by rw [hfirst, hlast]; omega, by rw [hlast]; omega⟩, hfirst⟩, ?_⟩
      rw [hfirst]
      rcases Nat.eq_zero_or_pos len with rfl | hpos
      · have hxm : x = m := by omega
        subst hxm
        simp only [List.range'_zero, List.reverse_nil, List.map_nil, ClosedPieces]
        omega
      · have hhp : 1 ≤ hd T sa x := by
          have := tl_succ (T := T) (sa := sa) (k := x - 1) (by omega)
          rw [show x - 1 + 1 = x by omega] at this; omega
        have hma : a < hd T sa x := by
          have h3 : tl T sa m ≤ tl T sa (x-1) := by
            rcases Nat.lt_or_eq_of_le (show m ≤ x - 1 by omega) with hlt | he
            · exact Nat.le_of_lt (tl_strict hlt (by omega))
            · rw [he]
          have := tl_succ (T := T) (sa := sa) (k := x - 1) (by omega)
          rw [show x - 1 + 1 = x by omega] at this; omega
        have := ih (x - 1) hpos (by omega) (by omega) (hd T sa x - 1) (by rw [show x - 1 + 1 = x by omega]; omega)
        rw [show hd T sa x - 1 + 1 = max (hd T sa x) a by omega] at this
        exact this
  have := key (e + 1 - m) e (by omega) (by omega) (by omega) b (by have := tl_succ he; omega)
  exact this

theorem scnt_between {i j c : Nat} (hij : i ≤ j) (hj : j ≤ T.length) (hno : ∀ x, i ≤ x → x < j → symAt T sa x ≠ c) :
    scnt T sa c j = scnt T sa c i := by
  obtain ⟨d, rfl⟩ : ∃ d, j = i + d := ⟨j - i, by omega⟩
  induction d with
  | zero => rfl
  | succ d ih =>
    rw [← Nat.add_assoc, h.scnt_succ (by omega), if_neg (hno (i+d) (by omega) (by omega)), Nat.add_zero,
      ih (by omega) (by omega) (fun x h1 h2 => hno x h1 (by omega))]


end SeqOK

/-- what the parts of a built index hold; `K` lists the sampled runs -/
structure OK (I : LegacyIndex) (T sa K : List Nat) : Prop where
  seq : SeqOK I.rle I.f T sa
  lastSym : I.lastSym = symAt T sa (T.length - 1)
  sorted : K.Pairwise (· < ·)
  lt : ∀ k ∈ K, k < nrun T sa
  samples : I.items.sr.base.samples = K.map (fun k => pv T sa (tl T sa k))
  samplesIdx : I.items.sr.samplesIdx = (List.range (nrun T sa)).map (fun i => decide (i ∈ K))
  zero : ∃ k ∈ K, saAt sa (tl T sa k) = 0
  phi : PhiOK T sa I.items.sr.s (keptOf T sa K) I.items.sr.base.phi
  phiMark : PhiOK T sa I.items.sr.s (keptOf T sa K) I.items.phiMark
  phiArea : PhiOK T sa I.items.sr.s (keptOf T sa K) I.items.phiArea
  validMark : PhiValid T sa I.items.phiMark
  validArea : PhiValid T sa I.items.phiArea

namespace OK
variable (h : I.OK T sa K)
include h

theorem kept_tl {k : Nat} (hk : k < nrun T sa) : keptOf T sa K (tl T sa k) ↔ k ∈ K :=
  ⟨fun ⟨m, hm, e⟩ => tl_inj (h.lt m hm) hk e ▸ hm, fun hm => ⟨k, hm, rfl⟩⟩

theorem sample {y : Nat} (hy : y < T.length) : (keptOf T sa K y ∧ I.sampleAt y = some (some (pv T sa y))) ∨
    (¬ keptOf T sa K y ∧ I.sampleAt y = some none) := by
  obtain ⟨k, hk, h1, h2⟩ := run_find (sa := sa) hy
  rw [LegacyIndex.sampleAt, h.seq.runOf hk h1 h2]
  simp only [Option.bind_eq_bind, Option.bind_some]
  by_cases he : y = tl T sa k
  · subst he
    rw [h.kept_tl hk, h.samplesIdx, List.getElem?_map, List.getElem?_range hk]
    simp only [ne_eq, not_true_eq_false, if_false, Option.map_some, Option.bind_some]
    by_cases hm : k ∈ K
    · left
      have hnd : K.Nodup := h.sorted.imp (fun h => Nat.ne_of_lt h)
      have g1 := count_bits hnd (n := nrun T sa) (p := k) (by omega)
      have g2 := strict_index (key := fun x => x) h.sorted hm
      rw [← g1] at g2
      refine ⟨hm, ?_⟩
      rw [sampleForRun, h.samplesIdx]
      simp only [hm, decide_true, if_true, bvRank, List.length_map, List.length_range, show k ≤ nrun T sa by omega, Option.bind_some,
        Option.bind_eq_bind, h.samples, List.getElem?_map, g2, Option.map_some]
      rfl
    · right
      refine ⟨hm, ?_⟩
      simp only [hm, decide_false, Bool.false_eq_true, if_false]; rfl
  · right
    refine ⟨?_, by rw [if_pos he]; rfl⟩
    rintro ⟨m, hm, e⟩
    have hml := h.lt m hm
    have : m = k := run_unique hml hk (by rw [← e]; exact hd_le_tl hml) (Nat.le_of_eq e.symm) h1 h2
    subst this; exact he e.symm

theorem closedOK {phi : Nat → Option (Nat × Bool)} (hphi : PhiOK T sa I.items.sr.s (keptOf T sa K) phi) :
    ClosedOK (I.closed phi) T sa writeTerminator I.items.sr.s (keptOf T sa K) where
  text := h.seq.text
  isSA := h.seq.isSA
  size := h.seq.size
  rate := rfl
  tail := fun y ⟨k, hk, e⟩ => e ▸ tailAt_tl (h.lt k hk)
  zero := fun y hy h0 => by
    obtain ⟨k, hk, hz⟩ := h.zero
    exact ⟨k, hk, saAt_inj h.seq.isSA (tl_lt (h.lt k hk)) hy (by omega)⟩
  sample := fun y hy => h.sample hy
  split := fun a b hab hb => h.seq.split_ok hab hb
  nav := fun k p q hk h0 h1 h2 h3 => h.seq.nav hk h0 h1 h2 h3
  phi := hphi

theorem basicLF_eq {x : Nat} (hx : x < T.length) (hpos : 0 < saAt sa x) : I.basicLF x = some (lfAt T sa x) := by
  have h0 : bwtAt T sa x ≠ 0 := fun e => by have := (bwtAt_zero_iff h.seq.text h.seq.isSA hx).1 e; omega
  have hm := bwtAt_mem h.seq.isSA hx
  have h1 : bwtAt T sa x ≠ 1 := fun e => h.seq.one (e ▸ hm)
  have hlt := h.seq.small _ hm
  have hs : symAt T sa x = bwtAt T sa x := by rw [symAt, writeTerminator, if_neg h0]
  rw [basicLF, h.seq.access hx, hs]
  simp only [Option.bind_eq_bind, Option.bind_some, h.seq.f_get (show bwtAt T sa x < 256 by omega), h.seq.rank (Nat.le_of_lt hx) (show bwtAt T sa x < 256 by omega),
    scnt_eq h.seq.isSA h0 h1 x (Nat.le_of_lt hx), Option.pure_def]
  rw [lf_formula h.seq.text h.seq.isSA hx]; rfl

theorem findSample_eq (fuel : Nat) : ∀ x, x < T.length → saAt sa x < fuel →
    ∃ j, findSample I.sampleAt I.basicLF fuel x = some (pv T sa (lfIt T sa j x), j) := by
  induction fuel with
  | zero => intro x _ hf; omega
  | succ fuel ih =>
    intro x hx hf
    rw [findSample]
    rcases h.sample hx with ⟨-, g⟩ | ⟨g0, g⟩
    · refine ⟨0, ?_⟩
      simp only [g, Option.bind_eq_bind, Option.bind_some, lfIt_zero]; rfl
    · have hpos : 0 < saAt sa x := by
        by_contra hc
        obtain ⟨k, hk, hz⟩ := h.zero
        exact g0 ⟨k, hk, saAt_inj h.seq.isSA (tl_lt (h.lt k hk)) hx (by omega)⟩
      have hst := sa_lf_of_pos h.seq.isSA hx hpos
      obtain ⟨j, hj⟩ := ih (lfAt T sa x) (lfAt_lt h.seq.isSA hx) (by omega)
      refine ⟨j + 1, ?_⟩
      simp only [g, h.basicLF_eq hx hpos, hj, Option.bind_eq_bind, Option.bind_some, lfIt_succ']
      rfl

/-- the suffix array at a position, through the nearest sample -/
theorem saValue_eq {x : Nat} (hx : x < T.length) : I.saValue x = some (saAt sa x) := by
  obtain ⟨j, hj⟩ := h.findSample_eq (I.rle.size + 1) x hx (by rw [h.seq.size]; have := saAt_lt h.seq.isSA hx; omega)
  unfold saValue saValueBackward
  rw [h.seq.size] at hj
  simp only [h.seq.size, hj, Option.bind_eq_bind, Option.bind_some, cmod, show T.length ≠ 0 by omega, if_false]
  rw [show pv T sa (lfIt T sa j x) + 1 + T.length + j = pv T sa (lfIt T sa j x) + 1 + j + T.length by omega, Nat.add_mod_right,
    sample_value h.seq.isSA hx rfl]

/-- the value at the last occurrence of the character before the end of the range -/
theorem lastValueOf_eq {j e c : Nat} (hj : j ≤ e) (he : e < T.length) (hc : symAt T sa j = c) (hno : ∀ x, j < x → x ≤ e → symAt T sa x ≠ c) :
    I.lastValueOf (c, e) = some (saAt sa j) := by
  have hc255 : c < 255 := hc ▸ symAt_lt h.seq.isSA h.seq.small (by omega)
  have e1 : scnt T sa c (e+1) = scnt T sa c j + 1 := by
    rw [h.seq.scnt_between (i := j+1) (j := e+1) (by omega) (by omega) (fun x h1 h2 => hno x (by omega) (by omega)), h.seq.scnt_succ (by omega), if_pos hc]
  rw [lastValueOf]
  simp only [h.seq.rank (show e + 1 ≤ T.length by omega) (show c < 256 by omega), e1, Option.bind_eq_bind, Option.bind_some, assertC, Nat.succ_pos,
    decide_true, if_true, Nat.add_sub_cancel, h.seq.select (show j < T.length by omega) hc, hj, h.saValue_eq (show j < T.length by omega)]

end OK
end LegacyIndex
end Sri
