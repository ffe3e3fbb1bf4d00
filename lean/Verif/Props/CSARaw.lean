import Verif.Model.CSARaw
import Verif.Props.RCSA
import Verif.Props.Streams
/-! # C48: CSARaw -/
namespace Sri
set_option autoImplicit false

namespace CSARaw
variable {T sa T' : List Nat} {I : CSARaw}

/-- what a built index holds -/
structure OK (I : CSARaw) (T sa : List Nat) : Prop where
  nav : I.toPsiNav.OK T sa
  sa : I.sa = sa

theorem build_ok (hT : IsText T) (hsa : IsSA T sa) (hn : T.length < W64) :
    ∃ I T', CSARaw.build T sa = some I ∧ I.OK T' sa ∧ Compact T sa I.alphabet T' := by
  obtain ⟨b, T', hb, ok⟩ := base_build hT hsa
  obtain ⟨p, hp, pk⟩ := psiItems_build ok hn
  obtain ⟨hC, hnav⟩ := PsiNav.ok_of_items ok pk
  refine ⟨{ alphabet := b.alphabet, psi := p.core, n := T'.length, sa := sa }, T', ?_, ⟨hnav, rfl⟩, ok.compact⟩
  simp only [build, ofItems, hb, hp, hC, Option.bind_eq_bind, Option.bind_some, Option.pure_def]

theorem values_eq (hsa : IsSA T sa) (h : I.sa = sa) : ∀ k a, a + k ≤ T.length → I.values k a = some ((List.range' a k).map (saAt sa))
  | 0, _, _ => rfl
  | k + 1, a, hk => by
    have hl := hsa.length
    rw [values, h, List.getElem?_eq_getElem (show a < sa.length by omega), values_eq hsa h k (a+1) (by omega)]
    simp only [Option.bind_eq_bind, Option.bind_some, Option.pure_def, List.range'_succ, List.map_cons, saAt_getElem (show a < sa.length by omega)]

theorem computeAll_eq (hsa : IsSA T sa) (h : I.sa = sa) {r : Range} (d : StepData Nat) (hb : r.stop ≤ T.length) (hab : r.start ≤ r.stop) :
    I.functors.computeAll r d = some (valuesUp sa r.start r.stop) := values_eq hsa h _ _ (by omega)

theorem navigates (I : CSARaw) : PsiNav.Navigates I.functors I.toPsiNav := ⟨rfl, rfl, rfl, rfl, rfl, rfl⟩

theorem OK.creates (T sa : List Nat) : PsiNav.Creates T sa (RCSABwt.den T sa) RCSABwt.createData :=
  fun _ _ nr _ => ⟨nr.start.rstart, rfl, fun _ _ h1 _ _ _ _ => h1⟩

theorem OK.exact (h : I.OK T' sa) (hc : Compact T sa I.alphabet T') : Exact I.count I.locate T sa id := by
  refine exactUp hc (F := I.functors) rfl ((h.nav.backSearchOf (navigates I)).mono (fun _ h => h.1))
    (h.nav.toeholdOf (OK.creates T' sa) (navigates I) rfl (fun _ => rfl)) ?_
  intro Q r d h1 h2 h3 h4 h5
  exact computeAll_eq h.nav.isSA h.sa d h1.2.1 h1.1

end CSARaw

theorem csaraw_exact {T sa : List Nat} (hT : IsText T) (hsa : IsSA T sa) (hn : T.length < 2^64) :
    ∃ I, CSARaw.build T sa = some I ∧ Exact I.count I.locate T sa id := by
  obtain ⟨I, T', hb, ok, hc⟩ := CSARaw.build_ok hT hsa (lt_W64 hn)
  exact ⟨I, hb, ok.exact hc⟩

/-- **C48**, Count: the range of CSARaw is the suffix-array interval of the pattern, as wide as the number of occurrences. -/
theorem c48_count (T sa : List Nat) (hT : IsText T) (hsa : IsSA T sa) (hn : T.length < 2^64) :
    ∃ I, CSARaw.build T sa = some I ∧ CountInterval I.count T sa ∧ CountExact I.count T := by
  obtain ⟨I, hb, h⟩ := csaraw_exact hT hsa hn
  exact ⟨I, hb, h.countInterval, h.countExact⟩

/-- **C48**, Locate: every occurrence exactly once and nothing else, in the order of the suffix array, as many as Count says. -/
theorem c48_locate (T sa : List Nat) (hT : IsText T) (hsa : IsSA T sa) (hn : T.length < 2^64) :
    ∃ I, CSARaw.build T sa = some I ∧ LocateExact I.locate T ∧ LocateUp I.count I.locate T sa ∧ LocateLength I.count I.locate T := by
  obtain ⟨I, hb, h⟩ := csaraw_exact hT hsa hn
  exact ⟨I, hb, h.locateExact List.Perm.refl, h.up, h.locateLength List.Perm.refl⟩

example : (CSARaw.build exText exSA).bind (·.count [1,2]) = some (1, 5) ∧
    (CSARaw.build exText exSA).bind (·.locate [1,2]) = some [6, 8, 3, 0] := by decide +kernel

/-- **C48**, the empty pattern: unlike the r-indexes (C15), Locate lists the suffix array from its first entry. -/
theorem c48_empty (T sa : List Nat) (hT : IsText T) (hsa : IsSA T sa) (hn : T.length < 2^64) :
    ∃ I, CSARaw.build T sa = some I ∧ I.count [] = some (0, T.length) ∧ I.locate [] = some sa := by
  obtain ⟨I, T', hb, ok, hc⟩ := CSARaw.build_ok hT hsa (lt_W64 hn)
  have hp := hc.text.pos
  have hl : sa.length = T'.length := hc.isSA.length
  refine ⟨I, hb, ?_, ?_⟩
  · simp [CSARaw.count, Functors.count, Functors.countLoop, CSARaw.functors, ok.nav.n, hc.len]
  · have h1 := CSARaw.computeAll_eq hc.isSA ok.sa (r := ⟨0, T'.length⟩) { step := 0, run := 0 } (Nat.le_refl _) (Nat.zero_le _)
    have h2 : valuesUp sa 0 T'.length = sa := by
      rw [← saSlice_eq hc.isSA (Nat.le_refl _), saSlice]
      simp [← hl]
    rw [h2] at h1
    unfold CSARaw.locate Functors.locate
    simp only [List.reverse_nil, Functors.locateLoop, Option.bind_eq_bind, Option.bind_some]
    rw [if_neg (by simp [CSARaw.functors, ok.nav.n, hp])]
    simp only [CSARaw.functors, ok.nav.n] at h1 ⊢
    exact h1

example : (CSARaw.build exText exSA).bind (·.locate []) = some exSA := by decide +kernel

/-- **C48**, absent characters: as in the other indexes (C14), looked up as the terminator; with the part that holds. -/
theorem c48_absent_violation (T sa : List Nat) (hT : IsText T) (hsa : IsSA T sa) (hn : T.length < 2^64) :
    ∃ I, CSARaw.build T sa = some I ∧ AbsentAnswered I.count I.locate T ∧ AbsentEmpty I.count T := by
  obtain ⟨I, T', hb, ok, hc⟩ := CSARaw.build_ok hT hsa (lt_W64 hn)
  refine ⟨I, hb, ?_, absentEmpty hc (F := I.functors) rfl (ok.nav.backSearchOf (CSARaw.navigates I))⟩
  refine ok.nav.absentAnswered hc (CSARaw.navigates I) rfl (CSARaw.OK.creates T' sa) rfl (fun _ => rfl) ?_
  intro r d h1 h2 _
  have hp := hc.text.pos
  rw [CSARaw.computeAll_eq hc.isSA ok.sa d (by omega) (by omega), h1, h2, valuesUp]
  simp [sa_zero hc.text hc.isSA]

example : (CSARaw.build exText exSA).bind (·.locate [9]) = some [11] := by decide +kernel

/-- **C48**, streams: CSARaw writes a stream from which load reads exactly what was written, and gives the same index. -/
theorem c48_stream {α : Type} (A : Prims α) (hA : A.Faithful) (T sa : List Nat) (I : CSARaw) (h : CSARaw.build T sa = some I) (rest : List α) :
    CSARaw.load A 64 (I.serialize A ++ rest) = some (I, rest) := by
  unfold CSARaw.build at h
  simp only [Option.bind_eq_bind, Option.bind_eq_some_iff] at h
  obtain ⟨b, -, p, hp, h⟩ := h
  have hd : Dens64 I.psi := by
    unfold CSARaw.ofItems at h
    simp only [Option.bind_eq_bind, Option.bind_eq_some_iff, Option.pure_def, Option.some.injEq] at h
    obtain ⟨_, -, rfl⟩ := h
    exact psiItems_dens hp
  have hi : CSARaw.ofItems I.alphabet I.psi I.sa = some I := by
    unfold CSARaw.ofItems at h ⊢
    simp only [Option.bind_eq_bind, Option.bind_eq_some_iff, Option.pure_def, Option.some.injEq] at h
    obtain ⟨n, h1, rfl⟩ := h
    dsimp only
    rw [h1]; rfl
  unfold CSARaw.load CSARaw.serialize
  simp only [List.append_assoc, hA.alphabet, Option.bind_eq_bind, Option.bind_some]
  rw [PsiCoreRLE.load_serialize hA 64 _ hd]
  simp only [Option.bind_some, hA.ints, hi, Option.pure_def]

example : ((CSARaw.build exText exSA).bind (fun I => (CSARaw.load atomPrims 64 (I.serialize atomPrims ++ [.size 5])).bind
    (fun q => (q.1.locate [2]).map (fun l => (l, q.2))))) = some ([7, 9, 4, 1], [.size 5]) := by decide +kernel

end Sri
