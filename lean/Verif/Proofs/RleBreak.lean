import Verif.Proofs.RleString
import Verif.Proofs.PsiCore
import Verif.SpecBreaks
/-! # Breaking ranges in rle_string -/
namespace Sri
set_option autoImplicit false
open Rep

variable {R : List (Nat × Nat)}

theorem crank_mono (c : Nat) {a b : Nat} (h : a ≤ b) : crank R c a ≤ crank R c b := by
  rw [crank, crank]
  exact (List.take_sublist_take_left h).countP_le

theorem crank_lt {c a b : Nat} (h : a < b) (ha : a < R.length) (hc : (R[a]).1 = c) : crank R c a < crank R c b := by
  have h1 := crank_mono (R := R) c (show a + 1 ≤ b by omega)
  rw [crank_succ c ha, if_pos hc] at h1
  omega

theorem crank_inj {c a b : Nat} (ha : a < R.length) (hb : b < R.length) (hca : (R[a]).1 = c) (hcb : (R[b]).1 = c)
    (h : crank R c a = crank R c b) : a = b := by
  rcases Nat.lt_trichotomy a b with hlt | he | hlt
  · have := crank_lt hlt ha hca; omega
  · exact he
  · have := crank_lt hlt hb hcb; omega

theorem mapM_some {α β : Type} (f : α → Option β) (g : α → β) (l : List α) (h : ∀ a ∈ l, f a = some (g a)) : l.mapM f = some (l.map g) := by
  induction l with
  | nil => rfl
  | cons a l ih =>
    rw [List.mapM_cons, h a (by simp), ih (fun a ha => h a (by simp [ha]))]; rfl

namespace RepB
variable {S : RleString}

theorem breakRange (h : RepB S R) {l r c ml mr : Nat} (hml : ml < R.length) (hmr : mr < R.length)
    (l1 : rstart R ml ≤ l) (l2 : l < rstart R (ml+1)) (r1 : rstart R mr ≤ r) (r2 : r < rstart R (mr+1)) (hlr : l ≤ r)
    (hcl : (R[ml]).1 = c) (hcr : (R[mr]).1 = c) :
    ∃ ms : List Nat, S.breakRange l r c = some (ms.map (fun m => (max l (rstart R m), min r (rstart R (m+1) - 1)))) ∧
      (∀ m, m ∈ ms ↔ ml ≤ m ∧ m ≤ mr ∧ ∃ hm : m < R.length, (R[m]).1 = c) ∧ ms.Pairwise (· < ·) := by
  have hle : ml ≤ mr := by
    by_contra hc
    have := rstart_mono R (show mr + 1 ≤ ml by omega); omega
  have hsz : r < S.size := by
    rw [RleString.size, h.n]; have := rstart_mono R (show mr + 1 ≤ R.length by omega); omega
  have hstart : S.breakRange l r c = (if ml = mr then some [(l, r)]
      else do
        let mid ← (List.range' (crank R c ml + 1) (crank R c mr - (crank R c ml + 1))).mapM (fun j => do
          let run ← HuffString.select S.heads j c
          S.runRange run)
        let run ← HuffString.select S.heads (crank R c mr) c
        let q ← S.runRange run
        return (l, rstart R (ml+1) - 1) :: mid ++ [(q.1, r)]) := by
    simp only [RleString.breakRange, hlr, hsz, decide_true, assertC, if_true, Option.bind_eq_bind, Option.bind_some,
      h.access hml l1 l2, h.access hmr r1 r2, hcl, hcr, h.runOf hml l1 l2, h.runOf hmr r1 r2, h.headRank c (Nat.le_of_lt hml),
      h.headRank c (Nat.le_of_lt hmr)]
    rfl
  rw [hstart]
  by_cases he : ml = mr
  · subst he
    refine ⟨[ml], ?_, ?_, by simp⟩
    · rw [if_pos rfl]; simp only [List.map_cons, List.map_nil]
      rw [show max l (rstart R ml) = l by omega, show min r (rstart R (ml+1) - 1) = r by omega]
    · intro m
      constructor
      · intro hm
        obtain rfl : m = ml := by simpa using hm
        exact ⟨Nat.le_refl _, Nat.le_refl _, hml, hcl⟩
      · rintro ⟨h1, h2, -⟩
        have : m = ml := by omega
        simp [this]
  · rw [if_neg he]
    have hlt : ml < mr := by omega
    have hcrk := crank_lt hlt hml hcl
    obtain ⟨g, hg⟩ : ∃ g : Nat → Nat, ∀ j, j < crank R c R.length →
        ∃ hq : g j < R.length, HuffString.select S.heads j c = some (g j) ∧ (R[g j]).1 = c ∧ crank R c (g j) = j := by
      refine ⟨fun j => (HuffString.select S.heads j c).getD 0, fun j hj => ?_⟩
      obtain ⟨q, hq, e1, e2, e3⟩ := h.headSelect hj
      have : (HuffString.select S.heads j c).getD 0 = q := by rw [e1]; rfl
      simp only [this]
      exact ⟨hq, e1, e2, e3⟩
    have hmaxc : crank R c mr < crank R c R.length := crank_lt hmr hmr hcr
    have hgl : g (crank R c ml) = ml := by
      obtain ⟨q1, -, q3, q4⟩ := hg (crank R c ml) (by omega)
      exact crank_inj q1 hml q3 hcl q4
    have hgr : g (crank R c mr) = mr := by
      obtain ⟨q1, -, q3, q4⟩ := hg (crank R c mr) (by omega)
      exact crank_inj q1 hmr q3 hcr q4
    have hginc : ∀ i j, i < j → j < crank R c R.length → g i < g j := by
      intro i j hij hj
      obtain ⟨a1, -, a3, a4⟩ := hg i (by omega)
      obtain ⟨b1, -, b3, b4⟩ := hg j hj
      by_contra hc
      have := crank_mono (R := R) c (show g j ≤ g i by omega)
      omega
    have hmid : (List.range' (crank R c ml + 1) (crank R c mr - (crank R c ml + 1))).mapM (fun j => do
          let run ← HuffString.select S.heads j c
          S.runRange run) = some ((List.range' (crank R c ml + 1) (crank R c mr - (crank R c ml + 1))).map
          (fun j => (max l (rstart R (g j)), min r (rstart R (g j + 1) - 1)))) := by
      apply mapM_some
      intro j hj
      rw [List.mem_range'_1] at hj
      obtain ⟨q1, q2, q3, q4⟩ := hg j (by omega)
      simp only [q2, Option.bind_eq_bind, Option.bind_some, h.runRange q1]
      have g1 := hginc (crank R c ml) j (by omega) (by omega)
      have g2 := hginc j (crank R c mr) (by omega) hmaxc
      rw [hgl] at g1; rw [hgr] at g2
      have s1 := rstart_mono R (show ml + 1 ≤ g j by omega)
      have s2 := rstart_mono R (show g j + 1 ≤ mr by omega)
      rw [show max l (rstart R (g j)) = rstart R (g j) by omega,
        show min r (rstart R (g j + 1) - 1) = rstart R (g j + 1) - 1 by omega]
    obtain ⟨q1, q2, q3, q4⟩ := hg (crank R c mr) hmaxc
    rw [hgr] at q2
    refine ⟨(List.range' (crank R c ml) (crank R c mr - crank R c ml + 1)).map g, ?_, ?_, ?_⟩
    · rw [hmid]
      simp only [Option.bind_eq_bind, Option.bind_some, q2, h.runRange hmr, Option.pure_def]
      have es : List.range' (crank R c ml) (crank R c mr - crank R c ml + 1) =
          crank R c ml :: List.range' (crank R c ml + 1) (crank R c mr - (crank R c ml + 1)) ++ [crank R c mr] := by
        rw [List.range'_succ, List.cons_append]
        congr 1
        have : crank R c mr - crank R c ml = (crank R c mr - (crank R c ml + 1)) + 1 := by omega
        rw [this, List.range'_concat]
        congr 2; omega
      have sl := rstart_mono R (show ml + 1 ≤ mr by omega)
      rw [es, List.map_map, List.map_append, List.map_cons, List.map_cons, List.map_nil]
      simp only [Function.comp_apply, hgl, hgr]
      rw [show max l (rstart R ml) = l by omega, show min r (rstart R (ml+1) - 1) = rstart R (ml+1) - 1 by omega,
        show max l (rstart R mr) = rstart R mr by omega, show min r (rstart R (mr+1) - 1) = r by omega]
      rfl
    · intro m
      simp only [List.mem_map, List.mem_range'_1]
      constructor
      · rintro ⟨j, ⟨j1, j2⟩, rfl⟩
        obtain ⟨p1, -, p3, -⟩ := hg j (by omega)
        refine ⟨?_, ?_, p1, p3⟩
        · rcases Nat.lt_or_eq_of_le j1 with hj | hj
          · have := hginc _ _ hj (by omega); omega
          · rw [← hj, hgl]
        · rcases Nat.lt_or_eq_of_le (show j ≤ crank R c mr by omega) with hj | hj
          · have := hginc _ _ hj hmaxc; omega
          · rw [hj, hgr]
      · rintro ⟨m1, m2, hm, hmc⟩
        have c1 := crank_mono (R := R) c m1
        have c2 := crank_mono (R := R) c m2
        refine ⟨crank R c m, ⟨c1, by omega⟩, ?_⟩
        obtain ⟨p1, -, p3, p4⟩ := hg (crank R c m) (by omega)
        exact crank_inj p1 hm p3 hmc p4
    · rw [List.pairwise_map]
      have hp : (List.range' (crank R c ml) (crank R c mr - crank R c ml + 1)).Pairwise (· < ·) := List.pairwise_lt_range'
      refine List.Pairwise.imp_of_mem ?_ hp
      intro a b _ hb hab
      rw [List.mem_range'_1] at hb
      exact hginc a b hab (by omega)

/-- what break_in_runs reports of run `m` -/
def report (R : List (Nat × Nat)) (first last m : Nat) : RleString.StringRun :=
  { run := m, c := (R.map (·.1)).getD m 0, first := max first (rstart R m), last := min last (rstart R (m+1) - 1) }

theorem findRun (h : RepB S R) {i m : Nat} (hm : m < R.length) (h1 : rstart R m ≤ i) (h2 : i < rstart R (m+1)) :
    ∀ fuel k, k ≤ m → m - k < fuel → S.findRun i fuel (rstart R k) k = some (rstart R (m+1), (R[m]).1, m + 1) := by
  intro fuel
  induction fuel with
  | zero => intro k _ hf; omega
  | succ fuel ih =>
    intro k hk hf
    rw [RleString.findRun, h.runInfo (show k < R.length by omega)]
    simp only [Option.bind_eq_bind, Option.bind_some, ← rstart_succ (show k < R.length by omega)]
    rcases Nat.lt_or_eq_of_le hk with hlt | rfl
    · have := rstart_mono R (show k + 1 ≤ m by omega)
      rw [if_pos (by omega)]
      exact ih (k+1) (by omega) (by omega)
    · rw [if_neg (by omega)]; rfl

theorem reportRuns (h : RepB S R) {first last e : Nat} (he : e < R.length) (h1 : rstart R e ≤ last) (h2 : last < rstart R (e+1)) :
    ∀ fuel k, (hk : k ≤ e) → e - k < fuel → first < rstart R (k+1) →
      S.reportRuns last fuel (max first (rstart R k)) (rstart R (k+1)) (R[k]'(by omega)).1 k =
        some ((List.range' k (e + 1 - k)).map (report R first last)) := by
  intro fuel
  induction fuel with
  | zero => intro k _ hf; omega
  | succ fuel ih =>
    intro k hk hf hfk
    rw [RleString.reportRuns]
    have hgk : (R.map (·.1)).getD k 0 = (R[k]'(by omega)).1 := by simp [show k < R.length by omega]
    rcases Nat.lt_or_eq_of_le hk with hlt | rfl
    · have hmono := rstart_mono R (show k + 1 ≤ e by omega)
      have hs := rstart_strict h.pos (show k + 1 < k + 1 + 1 by omega) (by omega)
      have hc : csub (rstart R (k+1)) 1 = some (rstart R (k+1) - 1) := by rw [csub, if_pos (by omega)]
      rw [if_pos (by omega), hc, h.runInfo (show k + 1 < R.length by omega)]
      simp only [Option.bind_eq_bind, Option.bind_some, ← rstart_succ (show k + 1 < R.length by omega)]
      have hi := ih (k+1) (by omega) (by omega) (by omega)
      rw [show max first (rstart R (k+1)) = rstart R (k+1) by omega] at hi
      rw [hi, show e + 1 - k = (e + 1 - (k + 1)) + 1 by omega, List.range'_succ, List.map_cons]
      simp only [Option.bind_some, Option.pure_def, report, hgk]
      rw [show min last (rstart R (k+1) - 1) = rstart R (k+1) - 1 by omega]
    · rw [if_neg (by omega), show k + 1 - k = 1 by omega]
      simp only [Option.pure_def, List.range'_one, List.map_cons, List.map_nil, report, hgk]
      rw [show min last (rstart R (k+1) - 1) = last by omega]

theorem breakInRuns (h : RepB S R) {first last m e : Nat} (hle : first ≤ last) (hm : m < R.length) (m1 : rstart R m ≤ first)
    (m2 : first < rstart R (m+1)) (he : e < R.length) (h1 : rstart R e ≤ last) (h2 : last < rstart R (e+1)) :
    S.breakInRuns first last = some ((List.range' m (e + 1 - m)).map (report R first last)) := by
  have hme : m ≤ e := by
    by_contra hc
    have := rstart_mono R (show e + 1 ≤ m by omega); omega
  have hsz : last < S.size := by
    rw [RleString.size, h.n]; have := rstart_mono R (show e + 1 ≤ R.length by omega); omega
  have hb : m / S.B * S.B ≤ m := Nat.div_mul_le_self _ _
  have hbs := rstart_mono R hb
  have hmR : m < S.R := by rw [h.R_eq]; exact hm
  have hf := h.findRun hm m1 m2 (S.R + 1) _ hb (by rw [h.R_eq]; omega)
  have hr := h.reportRuns (first := first) he h1 h2 (S.R + 1) m hme (by rw [h.R_eq]; omega) m2
  rw [show max first (rstart R m) = first by omega] at hr
  have hp : rstart R (m / S.B * S.B) ≤ first := by omega
  have hc : csub (m + 1) 1 = some m := by simp [csub]
  simp only [RleString.breakInRuns, hle, hsz, decide_true, assertC, if_true, Option.bind_eq_bind, Option.bind_some, h.block hm m1 m2,
    h.blockStart hm, hp, hf, hc, m2, h.access hm m1 m2, hmR, hr]

end RepB
end Sri
