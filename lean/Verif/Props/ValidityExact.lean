import Verif.Proofs.ValidityExact
import Verif.Props.SrIndex
import Verif.Props.SrCSA
/-! # C78: nothing is distrusted without cause

A sub-sampled phi goes by a kept mark. If the full index goes by the same mark, the value is right, and a user who pays for validity
information expects it to be declared so: the work of Locate in the classes with validity information is saved where it is. -/
namespace Sri
set_option autoImplicit false

/-- the bits of the marks of RIndex -/
theorem RIndex.OK.markSet {R : RIndex} {T sa : List Nat} (h : R.OK T sa) (m : Nat) : MarkSet R.marks m ↔ HeadMark T sa m := by
  rw [MarkSet, h.marks, bits_get (headPos_lt h.text.pos), mem_headPos]

theorem RIndex.OK.pred {R : RIndex} {T sa : List Nat} (h : R.OK T sa) {v : Nat} (hv : v ≤ T.length) :
    ∃ o p, R.predecessor v = some (o, p) ∧ CircPred (HeadMark T sa) v p := by
  have hn := h.text.pos
  obtain ⟨o, k, hk, g1, -, -, g4⟩ := pred_marks (headPos_nodup h.isSA) (headPos_lt hn) (headPos_ne (sa := sa) hn) hv
  rw [show (fun x => x ∈ headPos T sa) = HeadMark T sa by funext x; exact propext mem_headPos] at g4
  exact ⟨o, _, by unfold RIndex.predecessor; rw [h.marks, h.n]; exact g1, g4⟩

theorem SrIndex.OK.markSet {I : SrIndex} {T sa K : List Nat} (h : I.OK T sa K) (m : Nat) : MarkSet I.base.marks m ↔ m ∈ subPos T sa K := by
  rw [MarkSet, h.marks, bits_get]
  intro v hv
  obtain ⟨k, -, rfl⟩ := mem_subPos.1 hv
  exact pv_lt h.nav.text.pos

/-- **C78** (SrIndexValidMark, SrIndexValidArea), proved in part: let `p` be the kept mark that phi goes by from `v`, and `p'` the mark that
    the full r-index goes by. With validity marks the value is declared valid exactly if the mark that follows `p` was kept. With validity
    areas it is declared valid exactly if `p = p'`, unless `v` itself is a mark that was not kept. What is missing are those `v`: see
    `c78_srindex_area_violation`. -/
theorem c78_srindex_partial (T sa : List Nat) (hT : IsText T) (hsa : IsSA T sa) (s : Nat) :
    ∃ I R, SrIndexValid.build T sa s = some I ∧ RIndex.build T sa = some R ∧ ∀ v, v < T.length - 1 →
      ∃ o p o' p' w okm oka, I.sr.base.predecessor v = some (o, p) ∧ R.predecessor v = some (o', p') ∧
        I.phiMark v = some (w, okm) ∧ I.phiArea v = some (w, oka) ∧
        (okm = true ↔ NextKept R.marks I.sr.base.marks p) ∧
        (oka = true ↔ p' = p ∧ (MarkSet R.marks v → MarkSet I.sr.base.marks v)) := by
  obtain ⟨I, T', K, V, hb, ok, -, hc, -, -, har⟩ := SrIndexValid.build_ok' hT hsa s
  obtain ⟨R, T'', hR, okR, hcR⟩ := RIndex.build_ok hT hsa
  have hM : ∀ m, HeadMark T'' sa m ↔ HeadMark T' sa m := fun m => by
    rw [← mem_headPos, ← mem_headPos, hc.headPos_eq hT hsa, hcR.headPos_eq hT hsa]
  have hM' : HeadMark T'' sa = HeadMark T' sa := funext (fun m => propext (hM m))
  have hs := subPos_sub (T := T') (sa := sa) (K := K) hc.text.pos
  refine ⟨I, R, hb, hR, fun v hv => ?_⟩
  obtain ⟨i, h1, hi, rfl⟩ := exists_pos_of_value hT hsa hv
  obtain ⟨o, p, w, okm, oka, e1, e2, e3, e4, e5, e6, -⟩ := ok.flags (e := 0) (by simpa using har) h1 (by rw [hc.len]; exact hi)
  obtain ⟨o', p', f1, f2⟩ := okR.pred (v := saAt sa i) (by rw [hcR.len]; omega)
  rw [hM'] at f2
  refine ⟨o, p, o', p', w, okm, oka, e1, f1, e3, e4, ?_, ?_⟩
  · rw [e5, next_kept_iff hs]
    simp only [NextKept, okR.markSet, ok.sr.markSet, hM]
  · rw [e6, area_back_iff (Nat.zero_le _) hs e2 f2 ok.sr.first ok.sr.last, okR.markSet, ok.sr.markSet, hM]
    simp

/-- **C78**, violation, for every text and rate: wherever sub-sampling removed a mark, SrIndexValidArea declares a value invalid although it is
    right and phi goes by the same mark as in the full r-index. (The area stored for a mark is the distance to the first removed mark after
    it, and a value at this very distance is refused, though the mark that precedes a position is looked for strictly before it.) -/
theorem c78_srindex_area_violation (T sa : List Nat) (hT : IsText T) (hsa : IsSA T sa) (s : Nat) :
    ∃ I R, SrIndexValid.build T sa s = some I ∧ RIndex.build T sa = some R ∧
      ((∃ m, MarkSet R.marks m ∧ ¬ MarkSet I.sr.base.marks m) →
        ∃ v o o' p w, v < T.length - 1 ∧ I.sr.base.predecessor v = some (o, p) ∧ R.predecessor v = some (o', p) ∧
          I.phiArea v = some (w, false) ∧ R.phi v = some (w, true)) := by
  obtain ⟨I, T', K, V, hb, ok, -, hc, -, -, har⟩ := SrIndexValid.build_ok' hT hsa s
  obtain ⟨R, T'', hR, okR, hcR⟩ := RIndex.build_ok hT hsa
  have hM : ∀ m, HeadMark T'' sa m ↔ HeadMark T' sa m := fun m => by
    rw [← mem_headPos, ← mem_headPos, hc.headPos_eq hT hsa, hcR.headPos_eq hT hsa]
  have hM' : HeadMark T'' sa = HeadMark T' sa := funext (fun m => propext (hM m))
  have hs := subPos_sub (T := T') (sa := sa) (K := K) hc.text.pos
  have hn := hT.pos
  refine ⟨I, R, hb, hR, ?_⟩
  rintro ⟨m, hm1, hm2⟩
  rw [okR.markSet, hM] at hm1
  rw [ok.sr.markSet] at hm2
  -- the kept mark before `m`, and the first mark after it
  obtain ⟨x, hx, hxm⟩ := ok.sr.first m hm1
  have hxm' : x < m := by
    rcases Nat.lt_or_eq_of_le hxm with h | h
    · exact h
    · exact absurd (h ▸ hx) hm2
  obtain ⟨p, hp1, hp2, hp3, hp4⟩ := greatest_below (M := (· ∈ subPos T' sa K)) hx hxm'
  obtain ⟨v, hv1, hv2, hv3, hv4⟩ := least_above (M := HeadMark T' sa) hm1 hp2
  have hvK : v ∉ subPos T' sa K := by
    intro hc'
    rcases Nat.lt_or_eq_of_le hv3 with h | h
    · have := hp4 v h hc'; omega
    · exact hm2 (h ▸ hc')
  obtain ⟨z, hz, hzv⟩ := ok.sr.last v hv1
  have hzl : z < T.length := by
    obtain ⟨k, -, rfl⟩ := mem_subPos.1 hz
    rw [← hc.len]; exact pv_lt hc.text.pos
  have hvl : v < T.length - 1 := by
    rcases Nat.lt_or_eq_of_le hzv with h | h
    · omega
    · exact absurd (h ▸ hz) hvK
  -- the predecessor in both
  have hcp : CircPred (· ∈ subPos T' sa K) v p := by
    refine ⟨hp1, fun _ => ⟨hv2, fun q hq hqv => hp4 q (by omega) hq⟩, fun hall => ?_⟩
    have := hall p hp1; omega
  have hcp' : CircPred (HeadMark T' sa) v p := by
    refine ⟨hs p hp1, fun _ => ⟨hv2, fun q hq hqv => ?_⟩, fun hall => ?_⟩
    · by_contra hcc
      have := hv4 q (by omega) hq; omega
    · have := hall p (hs p hp1); omega
  obtain ⟨i, h1, hi, rfl⟩ := exists_pos_of_value hT hsa hvl
  obtain ⟨o, p2, w, okm, oka, e1, e2, e3, e4, e5, e6, e7⟩ := ok.flags (e := 0) (by simpa using har) h1 (by rw [hc.len]; exact hi)
  obtain ⟨o', p', f1, f2⟩ := okR.pred (v := saAt sa i) (by rw [hcR.len]; omega)
  rw [hM'] at f2
  obtain rfl := e2.unique hcp
  obtain rfl := f2.unique hcp'
  rw [area_back_iff (Nat.zero_le _) hs e2 f2 ok.sr.first ok.sr.last] at e6
  have hoka : oka = false := by
    cases oka
    · rfl
    · exact absurd ((e6.1 rfl).2 rfl hv1) hvK
  subst hoka
  refine ⟨_, o, o', _, w, hvl, e1, f1, e4, ?_⟩
  rw [e7 hcp']
  exact okR.phi_eq h1 (by rw [hcR.len]; exact hi)

-- both flags come out both ways; at 7, the first removed mark, the value 0 is right and refused
example : ∃ I R, SrIndexValid.build exText exSA 6 = some I ∧ RIndex.build exText exSA = some R ∧
    MarkSet R.marks 7 ∧ ¬ MarkSet I.sr.base.marks 7 ∧ I.phiArea 7 = some (0, false) ∧ R.phi 7 = some (0, true) ∧
    I.phiMark 4 = some (9, true) ∧ I.phiArea 4 = some (9, true) ∧ I.phiMark 8 = some (1, false) ∧ I.phiArea 8 = some (1, false) :=
  ⟨_, _, by rfl, by rfl, by unfold MarkSet; decide +kernel⟩
example : IsText exText ∧ IsSA exText exSA := ⟨exText_isText, exSA_isSA⟩

/-- the bits of the marks of the r-CSAs -/
theorem RCSA.OK.markSet {R : RCSA} {T sa ord : List Nat} {lnk : Nat → Nat} (h : R.OK T sa ord lnk) (m : Nat) :
    MarkSet R.marks m ↔ TailMark T sa m := by
  rw [MarkSet, h.marks, bits_get, h.mem_marks]
  intro v hv
  exact (h.mem_marks.1 hv).lt h.nav.text.pos

theorem RCSA.OK.succ {R : RCSA} {T sa ord : List Nat} {lnk : Nat → Nat} (h : R.OK T sa ord lnk) {v : Nat} (hv : v ≤ T.length) :
    ∃ o p, R.successor v = some (o, p) ∧ CircSucc (TailMark T sa) v p := by
  have hn := h.nav.text.pos
  have hne : ord.map (fun q => pv T sa (tl T sa q)) ≠ [] := by
    intro hc
    have := h.mem_marks.2 (last_tailMark h.nav.text h.nav.isSA)
    rw [hc] at this; simp at this
  obtain ⟨o, k, hk, g1, -, -, g4⟩ := succ_marks h.nodup (fun x hx => (h.mem_marks.1 hx).lt hn) hne hv
  rw [show (fun x => x ∈ ord.map (fun q => pv T sa (tl T sa q))) = TailMark T sa by funext x; exact propext h.mem_marks] at g4
  exact ⟨o, _, by unfold RCSA.successor; rw [h.marks, h.nav.n]; exact g1, g4⟩

theorem SrCSA.OK.markSet {I : SrCSA} {T sa K : List Nat} (h : I.OK T sa K) (m : Nat) : MarkSet I.marks m ↔ m ∈ K.map (mkOf T sa) := by
  rw [MarkSet, h.marks, bits_get]
  intro v hv
  exact (h.sub_mark hv).lt h.nav.text.pos

/-- both flags of a class over psi -/
theorem SrCSAValid.OK.exact {I : SrCSAValid} {T sa T' K : List Nat} {V : List (Nat × Nat)} (ok : I.OK T' sa K V) (hT : IsText T) (hsa : IsSA T sa)
    (hn : T.length < 2^64) (hc : Compact T sa I.csa.alphabet T') :
    ∃ R, RCSABwt.build T sa = some R ∧ ∀ i (h : i < sa.length),
      ∃ o p o' p' w okm oka, I.csa.successor sa[i] = some (o, p) ∧ R.successor sa[i] = some (o', p') ∧
        I.phiMark sa[i] = some (w, okm) ∧ I.phiArea sa[i] = some (w, oka) ∧
        (okm = true ↔ PrevKept R.marks I.csa.marks p) ∧ (oka = true ↔ p' = p) := by
  obtain ⟨R, T'', hR, okR, hcR⟩ := RCSABwt.build_ok hT hsa (lt_W64 hn)
  have hM : ∀ m, TailMark T'' sa m ↔ TailMark T' sa m := fun m => by
    rw [← mem_tailPos, ← mem_tailPos, hc.tailPos_eq hT hsa, hcR.tailPos_eq hT hsa]
  have hM' : TailMark T'' sa = TailMark T' sa := funext (fun m => propext (hM m))
  refine ⟨R, hR, fun i h => ?_⟩
  have hl : sa.length = T'.length := hc.isSA.length
  obtain ⟨o, p, w, okm, oka, e1, e2, e0, e3, e4, e5, e6⟩ := ok.flags (i := i) (by omega)
  have hlt := saAt_lt hc.isSA (i := i) (by omega)
  obtain ⟨o', p', f1, f2⟩ := okR.succ (v := saAt sa i) (by rw [hcR.len, ← hc.len]; omega)
  rw [hM'] at f2
  have hs : ∀ q, q ∈ K.map (mkOf T' sa) → TailMark T' sa q := fun q hq => ok.csa.sub_mark hq
  rw [saAt_getElem h] at e1 e3 e4 f1
  refine ⟨o, p, o', p', w, okm, oka, e1, f1, e3, e4, ?_, ?_⟩
  · rw [e5, prev_kept_iff hs]
    simp only [PrevKept, okR.markSet, ok.csa.markSet, hM]
  · rw [e6]
    exact area_forw_iff hs e2 f2 e0 ok.csa.first ok.csa.last

/-- **C78** (SrCSAValidMark, SrCSAValidArea): let `p` be the kept mark that phi goes by, and `p'` the mark that the full r-CSA goes by. With
    validity marks the value is declared valid exactly if the mark before `p` was kept; with validity areas exactly if `p = p'`. -/
theorem c78_srcsa (T sa : List Nat) (hT : IsText T) (hsa : IsSA T sa) (hn : T.length < 2^64) (s : Nat) :
    ∃ I R, SrCSAValid.build T sa s = some I ∧ RCSABwt.build T sa = some R ∧ ∀ i (h : i < sa.length),
      ∃ o p o' p' w okm oka, I.csa.successor sa[i] = some (o, p) ∧ R.successor sa[i] = some (o', p') ∧
        I.phiMark sa[i] = some (w, okm) ∧ I.phiArea sa[i] = some (w, oka) ∧
        (okm = true ↔ PrevKept R.marks I.csa.marks p) ∧ (oka = true ↔ p' = p) := by
  obtain ⟨I, T', K, V, hb, ok, -, -, hc⟩ := SrCSAValid.build_ok hT hsa (lt_W64 hn) s
  obtain ⟨R, hR, h⟩ := ok.exact hT hsa hn hc
  exact ⟨I, R, hb, hR, h⟩

/-- **C78** (SrCSASlimValidMark, SrCSASlimValidArea) -/
theorem c78_srcsaslim (T sa : List Nat) (hT : IsText T) (hsa : IsSA T sa) (hn : T.length < 2^64) (s : Nat) :
    ∃ I R, SrCSAValid.buildSlim T sa s = some I ∧ RCSABwt.build T sa = some R ∧ ∀ i (h : i < sa.length),
      ∃ o p o' p' w okm oka, I.csa.successor sa[i] = some (o, p) ∧ R.successor sa[i] = some (o', p') ∧
        I.phiMark sa[i] = some (w, okm) ∧ I.phiArea sa[i] = some (w, oka) ∧
        (okm = true ↔ PrevKept R.marks I.csa.marks p) ∧ (oka = true ↔ p' = p) := by
  obtain ⟨I, T', K, V, hb, ok, -, -, hc⟩ := SrCSAValid.buildSlim_ok hT hsa (lt_W64 hn) s
  obtain ⟨R, hR, h⟩ := ok.exact hT hsa hn hc
  exact ⟨I, R, hb, hR, h⟩

/-- **C78** (SRCSAValidMark, SRCSAValidArea over the runs of psi) -/
theorem c78_srcsapsi (T sa : List Nat) (hT : IsText T) (hsa : IsSA T sa) (hn : T.length < 2^64) (s : Nat) :
    ∃ I R, SrCSAValid.buildPsi T sa s = some I ∧ RCSABwt.build T sa = some R ∧ ∀ i (h : i < sa.length),
      ∃ o p o' p' w okm oka, I.csa.successor sa[i] = some (o, p) ∧ R.successor sa[i] = some (o', p') ∧
        I.phiMark sa[i] = some (w, okm) ∧ I.phiArea sa[i] = some (w, oka) ∧
        (okm = true ↔ PrevKept R.marks I.csa.marks p) ∧ (oka = true ↔ p' = p) := by
  obtain ⟨I, T', K, V, hb, ok, -, -, hc⟩ := SrCSAValid.buildPsi_ok hT hsa (lt_W64 hn) s
  obtain ⟨R, hR, h⟩ := ok.exact hT hsa hn hc
  exact ⟨I, R, hb, hR, h⟩

-- at 9 the mark before the one that phi goes by was removed, and the area tells that the value is right all the same
example : ∃ I R, SrCSAValid.build exText exSA 6 = some I ∧ RCSABwt.build exText exSA = some R ∧
    MarkSet R.marks 7 ∧ ¬ MarkSet I.csa.marks 7 ∧
    I.phiMark 9 = some (4, false) ∧ I.phiArea 9 = some (4, true) ∧ R.phi 9 = some (4, true) ∧
    I.phiMark 3 = some (0, true) ∧ I.phiArea 3 = some (0, true) ∧ I.phiMark 6 = some (1, false) ∧ I.phiArea 6 = some (1, false) :=
  ⟨_, _, by rfl, by rfl, by unfold MarkSet; decide +kernel⟩

end Sri
