import Verif.Proofs.WordPsi
import Verif.Proofs.PsiCoreRuns
/-! # Machine arithmetic in a psi core, over all its symbols -/
namespace Sri
set_option autoImplicit false

theorem mapM_agrees {α β : Type} {f g : α → Option β} : ∀ {l : List α}, (∀ a ∈ l, Agrees (f a) (g a) (fun _ => True)) →
    Agrees (l.mapM f) (l.mapM g) (fun _ => True)
  | [], _ => Agrees.refl fun _ _ => trivial
  | a :: l, h => by
    rw [List.mapM_cons, List.mapM_cons]
    refine Agrees.bind (h a List.mem_cons_self) fun _ _ _ => ?_
    exact Agrees.bind (mapM_agrees fun b hb => h b (List.mem_cons_of_mem _ hb)) fun _ _ _ => Agrees.pure trivial

namespace PsiOK
variable {P : PsiCoreRLE} {xs : List Nat} {s h : Nat}

/-- a symbol has a part, or its operations fail -/
theorem cases (hp : PsiOK P xs s h) (c : Nat) : P.parts[c]? = none ∨
    ∃ E ranks, P.parts[c]? = some (E, ranks) ∧ PartOK E ranks (symRuns (rle xs) c) xs.length h := by
  by_cases hc : c < s
  · exact Or.inr (hp.part c hc)
  · exact Or.inl (List.getElem?_eq_none (by rw [hp.len]; omega))

variable (hN : xs.length < 2 ^ 61)
include hN

theorem rankReport64 (hp : PsiOK P xs s h) (c v : Nat) : Agrees (P.rankReport c v) (P.rankReport64 c v) (fun _ => True) := by
  rcases hp.cases c with e | ⟨E, ranks, e1, e2⟩
  · unfold PsiCoreRLE.rankReport PsiCoreRLE.rankReport64
    simp only [Option.bind_eq_bind]
    refine Agrees.assertC fun _ => ?_
    rw [e]; exact Agrees.none
  · exact e2.rankReport64 e1 hp.n hN v

theorem rank64 (hp : PsiOK P xs s h) (c v : Nat) : Agrees (P.rank c v) (P.rank64 c v) (fun _ => True) := by
  rcases hp.cases c with e | ⟨E, ranks, e1, e2⟩
  · unfold PsiCoreRLE.rank PsiCoreRLE.rank64
    simp only [Option.bind_eq_bind]
    refine Agrees.assertC fun _ => ?_
    rw [e]; exact Agrees.none
  · exact e2.rank64 e1 hp.n hN v

theorem select64 (hp : PsiOK P xs s h) (c : Nat) {rnk : Nat} (hr : rnk < W64) :
    Agrees (P.select c rnk) (P.select64 c rnk) (fun v => v < xs.length) := by
  rcases hp.cases c with e | ⟨E, ranks, e1, e2⟩
  · unfold PsiCoreRLE.select
    rw [e]; exact Agrees.none
  · exact e2.select64 e1 hp.n hN hr

theorem selectReport64 (hp : PsiOK P xs s h) (c : Nat) {rnk : Nat} (hr : rnk < W64) :
    Agrees (P.selectReport c rnk) (P.selectReport64 c rnk) (fun r => r.1 < xs.length) := by
  rcases hp.cases c with e | ⟨E, ranks, e1, e2⟩
  · unfold PsiCoreRLE.selectReport
    rw [e]; exact Agrees.none
  · exact e2.selectReport64 e1 hp.n hN hr

theorem computeForwardRuns64 (hp : PsiOK P xs s h) (c : Nat) {a b : Nat} (ha : a < W64) (hb : b < W64) :
    Agrees (P.computeForwardRuns c a b) (P.computeForwardRuns64 c a b) (fun _ => True) := by
  rcases hp.cases c with e | ⟨E, ranks, e1, e2⟩
  · unfold PsiCoreRLE.computeForwardRuns
    rw [e]; exact Agrees.none
  · exact e2.computeForwardRuns64 e1 hp.n hN ha hb

theorem splitInRuns64 (hp : PsiOK P xs s h) (a b : Nat) : Agrees (P.splitInRuns a b) (P.splitInRuns64 a b) (fun _ => True) := by
  unfold PsiCoreRLE.splitInRuns PsiCoreRLE.splitInRuns64
  simp only [Option.bind_eq_bind, Option.pure_def]
  refine Agrees.bind (mapM_agrees fun c _ => ?_) fun _ _ _ => Agrees.pure trivial
  rcases hp.cases c with e | ⟨E, ranks, e1, e2⟩
  · unfold PsiCoreRLE.splitInRunsC
    rw [e]; exact Agrees.none
  · exact e2.splitInRunsC64 e1 hp.n hN a b

theorem splitInSortedRuns64 (hp : PsiOK P xs s h) (a b : Nat) :
    Agrees (P.splitInSortedRuns a b) (P.splitInSortedRuns64 a b) (fun _ => True) := by
  unfold PsiCoreRLE.splitInSortedRuns PsiCoreRLE.splitInSortedRuns64
  simp only [Option.bind_eq_bind, Option.pure_def]
  exact Agrees.bind (hp.splitInRuns64 hN a b) fun _ _ _ => Agrees.pure trivial

theorem traverse64 (hp : PsiOK P xs s h) (c : Nat) : P.traverse64 c = P.traverse c := by
  rcases hp.cases c with e | ⟨E, ranks, e1, e2⟩
  · unfold PsiCoreRLE.traverse PsiCoreRLE.traverse64
    rw [e]; rfl
  · exact e2.traverse64 e1 hp.n hN

theorem rankSoftRunC64 (hp : PsiOK P xs s h) (c v : Nat) : P.rankSoftRunC64 c v = P.rankSoftRunC c v := by
  rcases hp.cases c with e | ⟨E, ranks, e1, e2⟩
  · unfold PsiCoreRLE.rankSoftRunC PsiCoreRLE.rankSoftRunC64
    simp only [Option.bind_eq_bind]
    rw [e, Option.bind_none, Option.bind_none]
  · exact e2.rankSoftRunC64 e1 hp.n hN v

theorem exist64 (hp : PsiOK P xs s h) (c v : Nat) : P.exist64 c v = P.exist c v := by
  unfold PsiCoreRLE.exist PsiCoreRLE.exist64
  rw [hp.rankSoftRunC64 hN]

theorem softRunLoop64 (hp : PsiOK P xs s h) (v : Nat) : ∀ (is : List Nat) (runs start : Nat) (r : Nat × Nat),
    P.softRunLoop v is runs start = some r → r.1 < W64 → P.softRunLoop64 v is runs start = some r ∧ runs ≤ r.1 := by
  intro is
  induction is with
  | nil =>
    intro runs start r e _
    rw [PsiCoreRLE.softRunLoop, Option.some_inj] at e
    subst e
    exact ⟨rfl, Nat.le_refl _⟩
  | cons i is ih =>
    intro runs start r e hr
    rw [PsiCoreRLE.softRunLoop] at e
    simp only [Option.bind_eq_bind, Option.bind_eq_some_iff] at e
    obtain ⟨q, hq, e⟩ := e
    obtain ⟨g1, g2⟩ := ih _ _ r e hr
    rw [PsiCoreRLE.softRunLoop64, hp.rankSoftRunC64 hN, hq]
    simp only [Option.bind_eq_bind, Option.bind_some]
    rw [add64_eq (by omega)]
    exact ⟨g1, by omega⟩

omit hN in
theorem runs_le (xs : List Nat) : (rle xs).length ≤ xs.length := by
  have h1 := length_le_sum (rle_pos xs)
  have h2 := length_expand (rle xs)
  rw [expand_rle, rstart, List.take_length] at h2
  omega

theorem rankSoftRun64 (hp : PsiOK P xs s h) (hd : Dense xs s) (v : Nat) :
    Agrees (P.rankSoftRun v) (P.rankSoftRun64 v) (fun r => r.1 ≤ xs.length) := by
  have hW := W64_eq
  have hl := runs_le xs
  obtain ⟨K, hK, hKi⟩ := runs_upto (xs := xs) v
  obtain ⟨st, h1, -, -⟩ := hp.rankSoftRun hd hK hKi
  intro r hr
  rw [h1, Option.some_inj] at hr
  subst hr
  exact ⟨(hp.softRunLoop64 hN v _ _ _ _ h1 (by dsimp only; omega)).1, by dsimp only; omega⟩

theorem rankRun64 (hp : PsiOK P xs s h) (hd : Dense xs s) (v : Nat) : Agrees (P.rankRun v) (P.rankRun64 v) (fun _ => True) := by
  have hW := W64_eq
  unfold PsiCoreRLE.rankRun PsiCoreRLE.rankRun64
  simp only [Option.bind_eq_bind, Option.pure_def]
  refine Agrees.bind (hp.rankSoftRun64 hN hd v) fun r hr _ => ?_
  obtain ⟨runs, st⟩ := r
  dsimp only at hr ⊢
  by_cases hc : v ≠ P.n ∧ st = v
  · rw [if_pos hc, if_pos hc]
    have := Agrees.csub (a := runs) (b := 1) (f := some) (y := some (wsub runs 1)) (Q := fun _ => True) fun hle => by
      rw [wsub_eq hle (by omega)]
      exact Agrees.pure trivial
    rwa [Option.bind_fun_some] at this
  · rw [if_neg hc, if_neg hc]; exact Agrees.pure trivial

omit hN in
theorem charRunLoop64 (P : PsiCoreRLE) : ∀ (is : List Nat) (runs : Nat) (l : List Nat),
    is.mapM (fun i => (P.parts[i]?).map (fun q => q.1.size / 2)) = some l → runs + l.sum < W64 →
    P.charRunLoop64 is runs = some (runs + l.sum) := by
  intro is
  induction is with
  | nil =>
    intro runs l e _
    rw [List.mapM_nil, Option.pure_def, Option.some_inj] at e
    subst e
    rfl
  | cons i is ih =>
    intro runs l e hl
    rw [List.mapM_cons] at e
    simp only [Option.bind_eq_bind, Option.bind_eq_some_iff, Option.map_eq_some_iff, Option.pure_def, Option.some_inj] at e
    obtain ⟨_, ⟨q, hq, rfl⟩, l', e, rfl⟩ := e
    rw [List.sum_cons] at hl ⊢
    rw [PsiCoreRLE.charRunLoop64, hq]
    simp only [Option.bind_eq_bind, Option.bind_some]
    rw [add64_eq (by omega), ih _ _ e (by omega), Nat.add_assoc]

theorem rankCharRun64 (hp : PsiOK P xs s h) (hd : Dense xs s) (c : Nat) :
    Agrees (P.rankCharRun c) (P.rankCharRun64 c) (fun r => r ≤ xs.length) := by
  have hW := W64_eq
  have hl := runs_le xs
  intro r hr
  unfold PsiCoreRLE.rankCharRun at hr
  simp only [Option.bind_eq_bind, Option.bind_eq_some_iff, Option.pure_def, Option.some_inj] at hr
  obtain ⟨l, e, rfl⟩ := hr
  have hle : l.sum ≤ xs.length := by
    have hc : c ≤ s := by
      by_contra hcon
      have hmem : s ∈ List.range c := List.mem_range.2 (by omega)
      have hnone : (P.parts[s]?).map (fun q => q.1.size / 2) = none := by
        rw [List.getElem?_eq_none (by rw [hp.len])]; rfl
      have : ∀ (is : List Nat) (l : List Nat), s ∈ is → is.mapM (fun i => (P.parts[i]?).map (fun q => q.1.size / 2)) = some l → False := by
        intro is
        induction is with
        | nil => intro l hm; cases hm
        | cons i is ih =>
          intro l hm e
          rw [List.mapM_cons] at e
          simp only [Option.bind_eq_bind, Option.bind_eq_some_iff, Option.pure_def, Option.some_inj] at e
          obtain ⟨_, e1, l', e2, -⟩ := e
          rcases List.mem_cons.1 hm with rfl | hm
          · rw [hnone] at e1; cases e1
          · exact ih l' hm e2
      exact this _ _ hmem e
    have h1 := hp.rankCharRun hc
    simp only [PsiCoreRLE.rankCharRun, e, Option.bind_eq_bind, Option.bind_some, Option.pure_def, Option.some_inj] at h1
    rw [h1]
    have h2 := sum_crank (rle xs) (rle xs).length s (rle_sym_lt hd.1) (Nat.le_refl _)
    have h3 : ∀ d, (symRuns (rle xs) d).length = Rep.crank (rle xs) d (rle xs).length := fun d => symRuns_length _ _
    simp only [h3]
    have h4 : ∀ (f : Nat → Nat) (a b : Nat), a ≤ b → ((List.range a).map f).sum ≤ ((List.range b).map f).sum := by
      intro f a b hab
      obtain ⟨d, rfl⟩ := Nat.exists_eq_add_of_le hab
      rw [List.range_add, List.map_append, List.sum_append]; omega
    have := h4 (fun c => Rep.crank (rle xs) c (rle xs).length) c s hc
    omega
  have := charRunLoop64 P (List.range c) 0 l e (by omega)
  rw [Nat.zero_add] at this
  exact ⟨this, hle⟩

end PsiOK
end Sri
