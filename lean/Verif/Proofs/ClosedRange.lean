import Verif.Proofs.BackRangeV
import Verif.Model.Legacy
/-! # Reporting an inclusive range backwards (phi.h:343-377, 459-548) -/
namespace Sri
set_option autoImplicit false

section
variable {T sa : List Nat} {kept : Nat → Prop} {s : Nat} {enc : Nat → Nat} {F : ClosedPhi}

/-- a piece of BWT run `k`, inclusive; `enc` is how the sequence writes the symbols -/
structure ClosedPiece (T sa : List Nat) (enc : Nat → Nat) (r : RleString.StringRun) (k : Nat) : Prop where
  lt : k < nrun T sa
  c : r.c = enc (sy T sa k)
  lo : hd T sa k ≤ r.first
  ne : r.first ≤ r.last
  hi : r.last ≤ tl T sa k

/-- the pieces of the runs that cover `[a,b)`, from the last one to the first -/
def ClosedPieces (T sa : List Nat) (enc : Nat → Nat) (a : Nat) : Nat → List RleString.StringRun → Prop
  | b, [] => a = b
  | b, r :: rs => r.last + 1 = b ∧ (∃ k, ClosedPiece T sa enc r k ∧ r.first = max (hd T sa k) a) ∧ ClosedPieces T sa enc a r.first rs

theorem ClosedPieces.le {a : Nat} {l : List RleString.StringRun} : ∀ {b : Nat}, ClosedPieces T sa enc a b l → a ≤ b := by
  induction l with
  | nil => intro b h; exact Nat.le_of_eq h
  | cons r rs ih =>
    rintro b ⟨rfl, ⟨k, hk, e⟩, h2⟩
    have := hk.ne
    omega

/-- what the functors over inclusive ranges do. Navigation is only asked for runs of characters other than the terminator. -/
structure ClosedOK (F : ClosedPhi) (T sa : List Nat) (enc : Nat → Nat) (s : Nat) (kept : Nat → Prop) : Prop where
  text : IsText T
  isSA : IsSA T sa
  size : F.bwtSize = T.length
  rate : F.samplingSize = s
  tail : ∀ y, kept y → TailAt T sa y
  zero : ∀ y, y < T.length → saAt sa y = 0 → kept y
  sample : ∀ y, y < T.length → (kept y ∧ F.sampleAt y = some (some (pv T sa y))) ∨ (¬ kept y ∧ F.sampleAt y = some none)
  split : ∀ a b, a ≤ b → b < T.length → ∃ l, F.split a b = some l ∧ ClosedPieces T sa enc a (b+1) l.reverse
  nav : ∀ k p q, k < nrun T sa → sy T sa k ≠ 0 → hd T sa k ≤ p → p ≤ q → q ≤ tl T sa k →
    F.lf (p, q) (enc (sy T sa k)) = some (lfAt T sa p, lfAt T sa p + (q - p))
  phi : PhiOK T sa s kept F.phi

/-- a kept tail inside a piece is its last position -/
theorem ClosedOK.kept_last (h : ClosedOK F T sa enc s kept) {k p q y : Nat} (hk : k < nrun T sa) (hp : hd T sa k ≤ p)
    (hq : q ≤ tl T sa k) (hy : kept y) (h1 : p ≤ y) (h2 : y ≤ q) : y = q := by
  obtain ⟨m, hm, rfl⟩ := tailAt_iff.1 (h.tail y hy)
  have : m = k := run_unique hm hk (hd_le_tl hm) (Nat.le_refl _) (by omega) (by omega)
  subst this; omega

/-- a run with a position that is no kept tail is a run of a character of the text -/
theorem ClosedOK.run_char (h : ClosedOK F T sa enc s kept) {k p : Nat} (hk : k < nrun T sa) (h1 : hd T sa k ≤ p) (h2 : p ≤ tl T sa k)
    (hp : ¬ kept p) : sy T sa k ≠ 0 := by
  intro h0
  have hpl : p < T.length := Nat.lt_of_le_of_lt h2 (tl_lt hk)
  exact hp (h.zero p hpl ((bwtAt_zero_iff h.text h.isSA hpl).1 (by rw [bwt_run hk h1 h2, h0])))

theorem trav_closed (hT : IsText T) (hsa : IsSA T sa) {L x a len p m k : Nat} (ht : Trav T sa kept L x a len)
    (hk : k < nrun T sa) (h1 : hd T sa k ≤ p) (h2 : p + m ≤ tl T sa k + 1) (hap : a ≤ p) (hpm : p + m ≤ a + len)
    (hno : ∀ y, p ≤ y → y < p + m → ¬ kept y) : Trav T sa kept (L+1) (x + (p - a)) (lfAt T sa p) m := by
  intro j hj
  obtain ⟨e1, e2⟩ := ht (p - a + j) (by omega)
  rw [← Nat.add_assoc] at e1 e2
  have e3 : a + (p - a + j) = p + j := by omega
  rw [e3] at e1
  refine ⟨?_, ?_⟩
  · rw [lfIt_succ, e1, lf_block hT hsa hk h1 j (by omega)]
  · intro e he
    rcases Nat.lt_or_eq_of_le (Nat.le_of_lt_succ he) with hlt | rfl
    · exact e2 e hlt
    · rw [e1]; exact hno _ (by omega) (by omega)

/-- positions that travelled together never reach position 0: the step before it is a kept tail -/
theorem ClosedOK.trav_pos (h : ClosedOK F T sa enc s kept) {L x a len : Nat} (ht : Trav T sa kept L x a len) (hl : 0 < len)
    (hx : 1 ≤ x) (hxn : x + len ≤ T.length) : 1 ≤ a := by
  obtain ⟨e1, e2⟩ := ht 0 hl
  rw [Nat.add_zero] at e1 e2
  cases L with
  | zero => rw [lfIt_zero] at e1; omega
  | succ L =>
    by_contra hc
    have ha : a + 0 = 0 := by omega
    rw [ha, lfIt_succ] at e1
    have hy := lfIt_lt (T := T) h.isSA L (i := x) (by omega)
    have hz := sa_zero h.text h.isSA
    have h0 : ¬ 0 < saAt sa (lfIt T sa L x) := by
      intro hpos
      have h1 := sa_lf_of_pos h.isSA hy hpos
      rw [e1, hz] at h1
      have := saAt_lt h.isSA hy
      omega
    exact e2 L (by omega) (h.zero _ hy (by omega))

theorem ClosedOK.trav_lt (h : ClosedOK F T sa enc s kept) {L x a len : Nat} (ht : Trav T sa kept L x a len) (hl : 0 < len)
    (hxn : x + len ≤ T.length) : a + len ≤ T.length := by
  have h1 := (ht (len - 1) (by omega)).1
  have h2 := lfIt_lt (T := T) h.isSA L (i := x + (len - 1)) (by omega)
  omega

theorem pend_closed (h : PhiOK T sa s kept F.phi) (hv : PhiValid T sa F.phi) {i : Nat} (h1 : 1 ≤ i) (hi : i < T.length) :
    ∃ v ok, F.phi (saAt sa i) = some (v, ok) ∧ Pend T sa s kept (i-1) v ok := by
  obtain ⟨v, ok, e1, e2⟩ := h i h1 hi
  exact ⟨v, ok, e1, fun hok => hv i v h1 hi (by rw [e1, hok]), e2⟩

namespace ClosedOK
variable (h : ClosedOK F T sa enc s kept) (hv : PhiValid T sa F.phi)
include h hv

theorem reportAll (len : Nat) : ∀ (fuel first x v : Nat) (ok : Bool), len < fuel → 1 ≤ first → 1 ≤ x → x + (len + 1) ≤ T.length →
    (∀ j, j < len + 1 → ∀ e, e < s → ¬ kept (lfIt T sa e (x + j))) → Pend T sa s kept (x + len) v ok →
    ∃ v' ok', F.reportAll fuel first (first + len) v = some (down sa x (len + 1), v', ok') ∧ Pend T sa s kept (x - 1) v' ok' := by
  induction len with
  | zero =>
    intro fuel first x v ok hf h1 hx hxn hno hp
    obtain ⟨fuel, rfl⟩ : ∃ g, fuel = g + 1 := ⟨fuel - 1, by omega⟩
    have hve := hp.2 (hno 0 (by omega))
    subst hve
    obtain ⟨w, ok2, e1, e2⟩ := pend_closed h.phi hv (i := x) hx (by omega)
    refine ⟨w, ok2, ?_, e2⟩
    rw [ClosedPhi.reportAll, Nat.add_zero, e1]
    simp only [Option.bind_eq_bind, Option.bind_some, csub, Nat.add_zero, h1, if_true, show ¬ first ≤ first - 1 by omega, if_false]
    rfl
  | succ len ih =>
    intro fuel first x v ok hf h1 hx hxn hno hp
    obtain ⟨fuel, rfl⟩ : ∃ g, fuel = g + 1 := ⟨fuel - 1, by omega⟩
    have hve := hp.2 (hno (len + 1) (by omega))
    subst hve
    obtain ⟨w, ok2, e1, e2⟩ := pend_closed h.phi hv (i := x + (len + 1)) (by omega) (by omega)
    obtain ⟨v', ok', g1, g2⟩ := ih fuel first x w ok2 (by omega) h1 hx (by omega) (fun j hj => hno j (by omega))
      (by rw [show x + (len + 1) - 1 = x + len by omega] at e2; exact e2)
    refine ⟨v', ok', ?_, g2⟩
    rw [ClosedPhi.reportAll, e1]
    simp only [Option.bind_eq_bind, Option.bind_some, csub, show 1 ≤ first + (len + 1) by omega, if_true,
      show first + (len + 1) - 1 = first + len by omega, show first ≤ first + len by omega, g1, down_succ x (len + 1)]
    rfl

theorem reportValid (len : Nat) : ∀ (fuel first x v : Nat) (ok : Bool), len ≤ fuel → 1 ≤ first → 1 ≤ x → x + len ≤ T.length →
    Pend T sa s kept (x + len - 1) v ok →
    ∃ m v' ok', m ≤ len ∧ F.reportValid fuel first (first + len - 1) v ok = some (down sa (x + m) (len - m), first + m - 1, v', ok') ∧
      (m = 0 ∨ ok' = false) ∧ (0 < len → ok = true → m < len) ∧ Pend T sa s kept (x + m - 1) v' ok' := by
  induction len with
  | zero =>
    intro fuel first x v ok hf h1 hx hxn hp
    refine ⟨0, v, ok, Nat.le_refl _, ?_, Or.inl rfl, by omega, hp⟩
    cases fuel <;> simp [ClosedPhi.reportValid, show first - 1 < first by omega, down]
  | succ len ih =>
    intro fuel first x v ok hf h1 hx hxn hp
    cases ok with
    | false =>
      refine ⟨len + 1, v, false, Nat.le_refl _, ?_, Or.inr rfl, by simp, hp⟩
      cases fuel <;> simp [ClosedPhi.reportValid, down]
    | true =>
      obtain ⟨fuel, rfl⟩ : ∃ g, fuel = g + 1 := ⟨fuel - 1, by omega⟩
      have hve := hp.1 rfl
      subst hve
      obtain ⟨w, ok2, e1, e2⟩ := pend_closed h.phi hv (i := x + (len + 1) - 1) (by omega) (by omega)
      obtain ⟨m, v', ok', g1, g2, g3, g4, g5⟩ := ih fuel first x w ok2 (by omega) h1 hx (by omega)
          (by rw [show x + (len + 1) - 1 - 1 = x + len - 1 by omega] at e2; exact e2)
      refine ⟨m, v', ok', by omega, ?_, g3, by omega, g5⟩
      rw [ClosedPhi.reportValid]
      rw [if_neg (by simp)]
      simp only [Option.bind_eq_bind, Option.bind_some, e1, csub, show 1 ≤ first + (len + 1) - 1 by omega, if_true,
        show first + (len + 1) - 1 - 1 = first + len - 1 by omega, g2]
      rw [show len + 1 - m = (len - m) + 1 by omega, down_succ, show x + m + (len - m) = x + (len + 1) - 1 by omega]
      rfl

theorem reportSampled {L first x len0 : Nat} (h1 : 1 ≤ first) (hx : 1 ≤ x) (hxn : x + len0 ≤ T.length) (ht : Trav T sa kept L x first len0)
    (fuel : Nat) : ∀ (len v : Nat) (ok : Bool), len ≤ len0 → len + (if ok then 1 else 2) ≤ fuel → 
    Pend T sa s kept (x + len - 1) v ok →
    ∃ m v' ok', m ≤ len ∧ F.reportSampled L fuel first (first + len - 1) v ok = some (down sa (x + m) (len - m), first + m - 1, v', ok') ∧
      (0 < m → ¬ kept (first + m - 1)) ∧ Pend T sa s kept (x + m - 1) v' ok' := by
  induction fuel with
  | zero => intro len v ok hl hf; cases ok <;> simp at hf
  | succ fuel ih =>
    intro len v ok hl hf hp
    obtain ⟨m, v', ok', g1, g2, g3, g4, g5⟩ := h.reportValid hv len (F.bwtSize + 1) first x v ok (by rw [h.size]; omega) h1 hx (by omega) hp
    rw [ClosedPhi.reportSampled, g2]
    simp only [Option.bind_eq_bind, Option.bind_some]
    by_cases hm : m = 0
    · subst hm
      exact ⟨0, v', ok', by omega, by simp [show first - 1 < first by omega], by omega, g5⟩
    · have hok : ok' = false := by tauto
      subst hok
      rw [if_neg (by omega)]
      have hlt : first + m - 1 < T.length := by
        have := h.trav_lt ht (by omega) hxn; omega
      rcases h.sample (first + m - 1) hlt with ⟨k1, k2⟩ | ⟨k1, k2⟩
      · have hval : (pv T sa (first + m - 1) + 1 + L) % T.length = saAt sa (x + m - 1) := by
          refine sample_value h.isSA (by omega) ?_
          have := (ht (m - 1) (by omega)).1
          rw [show x + m - 1 = x + (m - 1) by omega, this]; omega
        obtain ⟨m2, v2, ok2, f1, f2, f3, f4⟩ := ih m (saAt sa (x + m - 1)) true (by omega)
          (by
            simp only [if_true]
            cases ok with
            | true => have := g4 (by omega) rfl; simp only [if_true] at hf; omega
            | false => simp only [Bool.false_eq_true, if_false] at hf; omega) (pend_of_eq rfl)
        simp only [k2, Option.bind_some, cmod, h.size, show T.length ≠ 0 by omega, if_false, hval, f2]
        refine ⟨m2, v2, ok2, by omega, ?_, f3, f4⟩
        rw [show len - m2 = (m - m2) + (len - m) by omega, down_add, show x + m2 + (m - m2) = x + m by omega]
        rfl
      · simp only [k2, Option.bind_some]
        exact ⟨m, v', false, g1, rfl, fun _ => k1, g5⟩

end ClosedOK

/-- specification of `compute` after `L` jumps on the ranges `D` allows -/
def ClosedSpec (T sa : List Nat) (s : Nat) (kept : Nat → Prop) (D : Nat → Nat → Prop) (L : Nat)
    (f : Nat × Nat → Nat → Bool → Option (List Nat × Nat × Bool)) : Prop :=
  ∀ (a len x v : Nat) (ok : Bool), 0 < len → 1 ≤ x → x + len ≤ T.length → D a len → Trav T sa kept L x a len →
    Pend T sa s kept (x + len - 1) v ok →
    ∃ v' ok', f (a, a + len - 1) v ok = some (down sa x len, v', ok') ∧ Pend T sa s kept (x - 1) v' ok'

/-- inside one run -/
def OneRun (T sa : List Nat) (a len : Nat) : Prop := ∃ k, k < nrun T sa ∧ hd T sa k ≤ a ∧ a + len ≤ tl T sa k + 1

/-- any range -/
def AnyRange (_ _ : Nat) : Prop := True

theorem sameLevel_spec {again : Nat × Nat → Nat → Bool → Option (List Nat × Nat × Bool)} {L : Nat}
    (hag : ClosedSpec T sa s kept (OneRun T sa) L again) (runs : List RleString.StringRun) :
    ∀ (a b x v : Nat) (ok : Bool), ClosedPieces T sa enc a b runs → 1 ≤ x → x + (b - a) ≤ T.length → Trav T sa kept L x a (b - a) →
      Pend T sa s kept (x + (b - a) - 1) v ok →
      ∃ v' ok', ClosedPhi.sameLevel again runs v ok = some (down sa x (b - a), v', ok') ∧ Pend T sa s kept (x - 1) v' ok' := by
  induction runs with
  | nil =>
    intro a b x v ok hp hx hxn ht hpd
    have : a = b := hp
    subst this
    exact ⟨v, ok, by simp [ClosedPhi.sameLevel, down], by simpa using hpd⟩
  | cons r rest ih =>
    rintro a b x v ok ⟨rfl, ⟨k, hk, he⟩, hp⟩ hx hxn ht hpd
    have hle := hp.le
    have hne := hk.ne
    have hlo := hk.lo
    have hhi := hk.hi
    obtain ⟨v1, ok1, e1, e2⟩ := hag r.first (r.last + 1 - r.first) (x + (r.first - a)) v ok (by omega) (by omega) (by omega)
      ⟨k, hk.lt, hlo, by omega⟩
      (by
        intro j hj
        have := ht (r.first - a + j) (by omega)
        rw [← Nat.add_assoc, show a + (r.first - a + j) = r.first + j by omega] at this
        exact this)
      (by rw [show x + (r.first - a) + (r.last + 1 - r.first) = x + (r.last + 1 - a) by omega]; exact hpd)
    rw [show r.first + (r.last + 1 - r.first) - 1 = r.last by omega] at e1
    obtain ⟨v2, ok2, f1, f2⟩ := ih a r.first x v1 ok1 hp hx (by omega) (fun j hj => ht j (by omega)) e2
    refine ⟨v2, ok2, ?_, f2⟩
    rw [ClosedPhi.sameLevel, e1]
    simp only [Option.bind_eq_bind, Option.bind_some, f1, Option.pure_def]
    rw [← down_add, show r.first - a + (r.last + 1 - r.first) = r.last + 1 - a by omega]

theorem ClosedOK.compute (h : ClosedOK F T sa enc s kept) (hv : PhiValid T sa F.phi) (depth : Nat) : ∀ L, 1 ≤ depth →
    (2 * (s - L) + 1 ≤ depth → ClosedSpec T sa s kept AnyRange L (F.compute depth L)) ∧
    (2 * (s - L) ≤ depth → ClosedSpec T sa s kept (OneRun T sa) L (F.compute depth L)) := by
  induction depth with
  | zero => intro L h1; omega
  | succ depth ih =>
    intro L _
    -- both cases at once: what is needed of the recursive calls
    have key : ∀ (D : Nat → Nat → Prop),
        (L < s → ClosedSpec T sa s kept AnyRange (L+1) (F.compute depth (L+1))) →
        (L < s → (∀ a len, D a len → OneRun T sa a len) ∨ ClosedSpec T sa s kept (OneRun T sa) L (F.compute depth L)) →
        ClosedSpec T sa s kept D L (F.compute (depth + 1) L) := by
      intro D hdeep hsame a len x v ok hlen hx hxn hD ht hp
      have ha1 := h.trav_pos ht hlen hx hxn
      have han := h.trav_lt ht hlen hxn
      rw [ClosedPhi.compute, if_neg (by omega)]
      by_cases hs : F.samplingSize ≤ L
      · rw [if_pos hs]
        rw [h.rate] at hs
        have := h.reportAll hv (len - 1) (F.bwtSize + 1) a x v ok (by rw [h.size]; omega) ha1 hx (by omega)
          (fun j hj e he => (ht j (by omega)).2 e (by omega)) (by rw [show x + (len - 1) = x + len - 1 by omega]; exact hp)
        rw [show a + (len - 1) = a + len - 1 by omega, show len - 1 + 1 = len by omega] at this
        exact this
      · rw [if_neg hs]
        rw [h.rate] at hs
        obtain ⟨m, v1, ok1, g1, g2, g3, g4⟩ := h.reportSampled hv ha1 hx hxn ht (F.bwtSize + 2) len v ok (Nat.le_refl _)
          (by rw [h.size]; split <;> omega) hp
        simp only [g2, Option.bind_eq_bind, Option.bind_some]
        by_cases hm : m = 0
        · subst hm
          rw [if_pos (by omega)]
          exact ⟨v1, ok1, rfl, g4⟩
        · rw [if_neg (by omega)]
          obtain ⟨l, e1, e2⟩ := h.split a (a + m - 1) (by omega) (by omega)
          rw [show a + m - 1 + 1 = a + m by omega] at e2
          simp only [e1, Option.bind_some]
          cases hrev : l.reverse with
          | nil => rw [hrev] at e2; have : a = a + m := e2; omega
          | cons r rest =>
            rw [hrev] at e2
            obtain ⟨q1, ⟨k, hk, q2⟩, q3⟩ := e2
            have hne := hk.ne
            have hlo := hk.lo
            have hhi := hk.hi
            have hle := q3.le
            have hno : ∀ y, r.first ≤ y → y ≤ r.last → ¬ kept y := by
              intro y y1 y2 hy
              have := h.kept_last hk.lt hlo hhi hy y1 y2
              refine g3 (by omega) ?_
              rw [show a + m - 1 = r.last by omega, ← this]; exact hy
            have hch := h.run_char hk.lt hlo (by omega) (hno r.first (Nat.le_refl _) hne)
            dsimp only
            rw [hk.c, h.nav k r.first r.last hk.lt hch hlo hne hhi]
            simp only [Option.bind_some]
            have htr := trav_closed h.text h.isSA ht hk.lt hlo (m := r.last + 1 - r.first) (by omega) hle (by omega)
              (fun y y1 y2 => hno y y1 (by omega))
            obtain ⟨v2, ok2, f1, f2⟩ := hdeep (by omega) (lfAt T sa r.first) (r.last + 1 - r.first) (x + (r.first - a)) v1 ok1 (by omega)
              (by omega) (by omega) trivial htr
              (by rw [show x + (r.first - a) + (r.last + 1 - r.first) = x + m by omega]; exact g4)
            rw [show lfAt T sa r.first + (r.last + 1 - r.first) - 1 = lfAt T sa r.first + (r.last - r.first) by omega] at f1
            simp only [f1, Option.bind_some]
            have hrest : ∃ v3 ok3, ClosedPhi.sameLevel (F.compute depth L) rest v2 ok2 = some (down sa x (r.first - a), v3, ok3) ∧
                Pend T sa s kept (x - 1) v3 ok3 := by
              rcases hsame (by omega) with hone | hsp
              · -- the range lies in one run: nothing is left
                obtain ⟨k', o1, o2, o3⟩ := hone a len hD
                have : k' = k := run_unique o1 hk.lt (i := r.first) (by omega) (by omega) hlo (by omega)
                subst this
                have hfa : r.first = a := by omega
                cases rest with
                | nil =>
                  refine ⟨v2, ok2, by simp [ClosedPhi.sameLevel, hfa, down], ?_⟩
                  rw [hfa] at f2; simpa using f2
                | cons r2 rest2 =>
                  obtain ⟨u1, ⟨k2, u2, u3⟩, -⟩ := q3
                  have := u2.ne
                  omega
              · exact sameLevel_spec hsp rest a r.first x v2 ok2 q3 hx (by omega) (fun j hj => ht j (by omega)) f2
            obtain ⟨v3, ok3, w1, w2⟩ := hrest
            refine ⟨v3, ok3, ?_, w2⟩
            simp only [w1, Option.bind_some, Option.pure_def]
            congr 2
            rw [show len = (r.first - a) + ((r.last + 1 - r.first) + (len - m)) by omega, down_add, down_add,
              show x + (r.first - a) + (r.last + 1 - r.first) = x + m by omega]
            congr 3
            omega
    refine ⟨fun hd => key _ (fun hL => ?_) (fun hL => Or.inr ?_), fun hd => key _ (fun hL => ?_) (fun hL => Or.inl fun _ _ d => d)⟩
    · exact (ih (L+1) (by omega)).1 (by omega)
    · exact (ih L (by omega)).2 (by omega)
    · exact (ih (L+1) (by omega)).1 (by omega)

/-- operator() on a range that does not hold the last position -/
theorem ClosedOK.report (h : ClosedOK F T sa enc s kept) (hv : PhiValid T sa F.phi) {a b : Nat} (ha : 1 ≤ a) (hab : a ≤ b)
    (hb : b + 1 < T.length) : F.report (a, b) (saAt sa (b+1)) = some (down sa a (b + 1 - a)) := by
  obtain ⟨v, ok, e1, e2⟩ := pend_closed h.phi hv (i := b + 1) (by omega) hb
  obtain ⟨v', ok', g1, -⟩ := (h.compute hv (2 * s + 2) 0 (by omega)).1 (by omega) a (b + 1 - a) a v ok (by omega) ha (by omega) trivial
    (trav_zero a _) (by rw [show a + (b + 1 - a) - 1 = b by omega]; exact e2)
  rw [show a + (b + 1 - a) - 1 = b by omega] at g1
  rw [ClosedPhi.report, e1]
  simp only [Option.bind_eq_bind, Option.bind_some, h.rate, g1]
  rfl

/-- operator() on an empty range reports nothing -/
theorem ClosedOK.report_empty (h : ClosedOK F T sa enc s kept) {a b : Nat} (hab : b < a) {i : Nat} (h1 : 1 ≤ i) (hi : i < T.length) :
    F.report (a, b) (saAt sa i) = some [] := by
  obtain ⟨v, ok, e1, -⟩ := h.phi i h1 hi
  simp [ClosedPhi.report, e1, ClosedPhi.compute, hab]


/-! ## buildPhiForRangeSimple -/

/-- specification of `compute` at level `L` -/
def SimpleSpec (T sa : List Nat) (kept : Nat → Prop) (L : Nat) (f : RleString.StringRun → Nat → Option (List Nat × Nat)) : Prop :=
  ∀ (r : RleString.StringRun) (x : Nat), r.first ≤ r.last → 1 ≤ x → x + (r.last + 1 - r.first) < T.length →
    Trav T sa kept L x r.first (r.last + 1 - r.first) →
    f r (saAt sa (x + (r.last + 1 - r.first))) = some (down sa x (r.last + 1 - r.first), saAt sa x)

theorem simple_update {r : RleString.StringRun} (h : 1 ≤ r.last) : F.simple.updateRun r = some { r with last := r.last - 1 } := by
  simp [ClosedPhi.simple, csub, h]

theorem simple_empty (r : RleString.StringRun) : F.simple.isRunEmpty r = decide (r.last < r.first) := rfl

theorem simple_while (h : ClosedOK F T sa enc s kept) (len : Nat) : ∀ (fuel : Nat) (r : RleString.StringRun) (x : Nat), len < fuel →
    r.last = r.first + len → 1 ≤ r.first → x + (len + 1) < T.length →
    (∀ j, j < len + 1 → ∀ e, e < s → ¬ kept (lfIt T sa e (x + j))) →
    F.simple.phiWhile fuel r (saAt sa (x + (len + 1))) = some (down sa x (len + 1), saAt sa x) := by
  induction len with
  | zero =>
    intro fuel r x hf hl h1 hx hno
    obtain ⟨fuel, rfl⟩ : ∃ g, fuel = g + 1 := ⟨fuel - 1, by omega⟩
    obtain ⟨v, ok, e1, e3⟩ := h.phi (x + 1) (by omega) hx
    rw [RangePhi.phiWhile, show F.simple.phi = F.phi from rfl, e1]
    simp only [Option.bind_eq_bind, Option.bind_some]
    rw [simple_update (by omega)]
    simp only [Option.bind_some, simple_empty, show r.last - 1 < r.first by omega, decide_true, if_true]
    have := e3 (by intro e he; exact hno 0 (by omega) e he)
    rw [this]; rfl
  | succ len ih =>
    intro fuel r x hf hl h1 hx hno
    obtain ⟨fuel, rfl⟩ : ∃ g, fuel = g + 1 := ⟨fuel - 1, by omega⟩
    obtain ⟨v, ok, e1, e3⟩ := h.phi (x + (len + 1 + 1)) (by omega) hx
    rw [RangePhi.phiWhile, show F.simple.phi = F.phi from rfl, e1]
    simp only [Option.bind_eq_bind, Option.bind_some]
    rw [simple_update (by omega)]
    simp only [Option.bind_some, simple_empty, show ¬ r.last - 1 < r.first by omega, decide_false, Bool.false_eq_true, if_false]
    have hv := e3 (by intro e he; exact hno (len + 1) (by omega) e he)
    rw [show x + (len + 1 + 1) - 1 = x + (len + 1) by omega] at hv
    subst hv
    rw [ih fuel { r with last := r.last - 1 } x (by omega) (by dsimp only; omega) h1 (by omega) (fun j hj => hno j (by omega))]
    simp only [Option.bind_some, down_succ x (len + 1)]; rfl

theorem simple_runs (h : ClosedOK F T sa enc s kept) {L : Nat} {next : RleString.StringRun → Nat → Option (List Nat × Nat)}
    (hnext : SimpleSpec T sa kept (L+1) next) (runs : List RleString.StringRun) :
    ∀ (a b x : Nat), 1 ≤ a → ClosedPieces T sa enc a b runs → 1 ≤ x → x + (b - a) < T.length → Trav T sa kept L x a (b - a) →
      F.simple.backRuns L next runs (saAt sa (x + (b - a))) = some (down sa x (b - a), saAt sa x) := by
  induction runs with
  | nil =>
    intro a b x _ hp _ hx ht
    have : a = b := hp
    subst this
    simp [RangePhi.backRuns, down]
  | cons r rest ih =>
    rintro a b x ha1 ⟨rfl, ⟨k, hk, he⟩, hp⟩ hx1 hx ht
    have hle := hp.le
    have hne := hk.ne
    have hlo := hk.lo
    have hhi := hk.hi
    have hklt := hk.lt
    have htl := tl_lt hklt
    have hrest := ih a r.first x ha1 hp hx1 (by omega) (fun j hj => ht j (by omega))
    rw [RangePhi.backRuns, show F.simple.getSample r = F.sampleAt r.last from rfl]
    have hnav : ∀ q, r.first ≤ q → q ≤ r.last → (∀ y, r.first ≤ y → y ≤ q → ¬ kept y) →
        F.simple.navigate { r with last := q } = some { r with first := lfAt T sa r.first, last := lfAt T sa r.first + (q - r.first) } := by
      intro q h1 h2 hno
      have hch := h.run_char hklt hlo (by omega) (hno r.first (Nat.le_refl _) h1)
      simp only [ClosedPhi.simple]
      rw [hk.c, h.nav k r.first q hklt hch hlo h1 (by omega)]
      rfl
    have hdeep : ∀ q, r.first ≤ q → q ≤ r.last → (∀ y, r.first ≤ y → y ≤ q → ¬ kept y) →
        next { r with first := lfAt T sa r.first, last := lfAt T sa r.first + (q - r.first) } (saAt sa (x + (q + 1 - a)))
          = some (down sa (x + (r.first - a)) (q + 1 - r.first), saAt sa (x + (r.first - a))) := by
      intro q h1 h2 hno
      have htr := trav_closed h.text h.isSA ht hklt hlo (m := q + 1 - r.first) (by omega) hle (by omega) (fun y y1 y2 => hno y y1 (by omega))
      have hlen : lfAt T sa r.first + (q - r.first) + 1 - lfAt T sa r.first = q + 1 - r.first := by omega
      have := hnext { r with first := lfAt T sa r.first, last := lfAt T sa r.first + (q - r.first) } (x + (r.first - a)) (by dsimp only; omega)
        (by omega) (by dsimp only; omega) (by dsimp only; rw [hlen]; exact htr)
      dsimp only at this
      rw [hlen, show x + (r.first - a) + (q + 1 - r.first) = x + (q + 1 - a) by omega] at this
      exact this
    have hkept : ∀ y, r.first ≤ y → y < r.last → ¬ kept y := by
      intro y h1 h2 hy
      have := h.kept_last hklt hlo hhi hy h1 (by omega)
      omega
    rcases h.sample r.last (by omega) with ⟨k1, k2⟩ | ⟨k1, k2⟩
    · have hval : (pv T sa r.last + 1 + L) % T.length = saAt sa (x + (r.last - a)) := by
        refine sample_value h.isSA (by omega) ?_
        have := (ht (r.last - a) (by omega)).1
        rw [this]; omega
      simp only [k2, Option.bind_eq_bind, Option.bind_some, cmod, show F.simple.seqSize = T.length from h.size, show T.length ≠ 0 by omega,
        if_false, simple_update (F := F) (show 1 ≤ r.last by omega), hval, Option.pure_def, simple_empty]
      by_cases hem : r.last - 1 < r.first
      · simp only [hem, decide_true, if_true, Option.bind_some]
        rw [show x + (r.last - a) = x + (r.first - a) by omega, hrest]
        simp only [Option.bind_some]
        congr 2
        rw [show r.last + 1 - a = (r.first - a) + 1 by omega, down_succ]
        simp
      · have h1 := hdeep (r.last - 1) (by omega) (by omega) (fun y y1 y2 => hkept y y1 (by omega))
        rw [show x + (r.last - 1 + 1 - a) = x + (r.last - a) by omega] at h1
        simp only [hem, decide_false, Bool.false_eq_true, if_false, hnav (r.last - 1) (by omega) (by omega) (fun y y1 y2 => hkept y y1 (by omega)),
          Option.bind_some, h1, hrest]
        congr 2
        rw [show r.last + 1 - a = (r.first - a) + ((r.last - 1 + 1 - r.first) + 1) by omega, down_add, down_succ,
          show x + (r.first - a) + (r.last - 1 + 1 - r.first) = x + (r.last - a) by omega]
        simp
    · have hno : ∀ y, r.first ≤ y → y ≤ r.last → ¬ kept y := by
        intro y y1 y2
        rcases Nat.lt_or_eq_of_le y2 with hlt | rfl
        · exact hkept y y1 hlt
        · exact k1
      have h1 := hdeep r.last hne (Nat.le_refl _) hno
      have h2 := hnav r.last hne (Nat.le_refl _) hno
      simp only [k2, Option.bind_eq_bind, Option.bind_some, Option.pure_def, simple_empty, show ¬ r.last < r.first by omega, decide_false,
        Bool.false_eq_true, if_false, show F.simple.navigate r = _ from h2, h1, hrest]
      congr 2
      rw [show r.last + 1 - a = (r.first - a) + (r.last + 1 - r.first) by omega, down_add]
      simp

theorem simple_compute (h : ClosedOK F T sa enc s kept) (depth : Nat) : ∀ L, s + 1 ≤ L + depth → 1 ≤ depth →
    SimpleSpec T sa kept L (F.simple.backCompute depth L) := by
  induction depth with
  | zero => intro L _ h1; omega
  | succ depth ih =>
    intro L hL _ r x hne hx1 hx ht
    have ha1 := h.trav_pos ht (by omega) hx1 (by omega)
    have han := h.trav_lt ht (by omega) (by omega)
    rw [RangePhi.backCompute]
    by_cases hs : F.simple.samplingSize ≤ L
    · rw [if_pos hs]
      have hs' : s ≤ L := by rw [← h.rate]; exact hs
      have := simple_while h (r.last - r.first) F.simple.seqSize r x (by rw [show F.simple.seqSize = T.length from h.size]; omega) (by omega) ha1
        (by omega) (fun j hj e he => (ht j (by omega)).2 e (by omega))
      rw [show r.last - r.first + 1 = r.last + 1 - r.first by omega] at this
      exact this
    · rw [if_neg hs]
      have hs' : ¬ s ≤ L := by rw [← h.rate]; exact hs
      obtain ⟨l, e1, e2⟩ := h.split r.first r.last hne (by omega)
      simp only [show F.simple.splitRun r = F.split r.first r.last from rfl, e1, Option.bind_eq_bind, Option.bind_some]
      exact simple_runs h (ih (L+1) (by omega) (by omega)) l.reverse r.first (r.last + 1) x ha1 e2 hx1 hx ht

/-- operator() of the simple functor on a range that does not hold the last position -/
theorem ClosedOK.reportSimple (h : ClosedOK F T sa enc s kept) {a b : Nat} (ha : 1 ≤ a) (hab : a ≤ b)
    (hb : b + 1 < T.length) : F.reportSimple (a, b) (saAt sa (b+1)) = some (down sa a (b + 1 - a)) := by
  obtain ⟨l, e1, e2⟩ := h.split a b hab (by omega)
  have := simple_runs h (simple_compute h (F.simple.samplingSize + 1) 1 (by rw [show F.simple.samplingSize = s from h.rate]; omega) (by omega))
    l.reverse a (b+1) a ha e2 ha (by omega) (trav_zero a _)
  rw [show a + (b + 1 - a) = b + 1 by omega] at this
  rw [ClosedPhi.reportSimple, if_neg (by dsimp only; omega)]
  simp only [e1, Option.bind_eq_bind, Option.bind_some, RangePhi.backRange, this]
  rfl

end
end Sri
