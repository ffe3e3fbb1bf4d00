import Verif.Model.EncVector
import Mathlib.Data.Nat.Log
import Mathlib.Tactic.Ring
import Mathlib.Tactic.SplitIfs
/-! # Elias-delta codes and enc_vector (helper lemmas) -/
namespace Sri
set_option autoImplicit false

attribute [local irreducible] W64

theorem W64_eq : W64 = 2 ^ 64 := by unfold W64; rfl

theorem W64_pos : 0 < W64 := by rw [W64_eq]; exact Nat.two_pow_pos 64

theorem bitsOf_succ (len x : Nat) : bitsOf (len+1) x = x.testBit 0 :: bitsOf len (x/2) := by
  simp [bitsOf, List.range_succ_eq_map, Nat.testBit_succ, Function.comp_def]

theorem bitsOf_length (len x : Nat) : (bitsOf len x).length = len := by simp [bitsOf]

theorem ofBits_bitsOf (len x : Nat) : ofBits (bitsOf len x) = x % 2 ^ len := by
  induction len generalizing x with
  | zero => simp [bitsOf, ofBits, Nat.mod_one]
  | succ len ih =>
    rw [bitsOf_succ, ofBits, ih, Nat.pow_succ, Nat.testBit_zero, Nat.mul_comm (2^len) 2, Nat.mod_mul]
    have : x % 2 = 0 ∨ x % 2 = 1 := by omega
    rcases this with h | h <;> rw [h] <;> simp

theorem readInt_append {z pre post : List Bool} {pos len x : Nat} (h : z = pre ++ (bitsOf len x ++ post)) (hp : pos = pre.length) :
    readInt z pos len = some (x % 2 ^ len) := by
  subst h; subst hp
  rw [readInt, if_pos (by simp [bitsOf_length])]
  rw [List.drop_left, ← ofBits_bitsOf]
  congr 2
  rw [List.take_append_of_le_length (by rw [bitsOf_length]), List.take_of_length_le (by rw [bitsOf_length])]

theorem readUnary_replicate (k : Nat) (post : List Bool) : readUnary (List.replicate k false ++ true :: post) = some k := by
  induction k with
  | zero => simp [readUnary]
  | succ k ih => simp [List.replicate_succ, readUnary, ih]

theorem log2_bounds {w : Nat} (h : w ≠ 0) : 2 ^ Nat.log2 w ≤ w ∧ w < 2 ^ (Nat.log2 w + 1) :=
  ⟨Nat.log2_self_le h, Nat.lt_log2_self⟩

/-- the elias-delta coder inverts its encoder on 64-bit values -/
theorem decode_encode {z : List Bool} {pos x : Nat} {post : List Bool} (hz : z.drop pos = eliasEncode x ++ post) (hx : x < W64) :
    eliasDecode z pos = some (x, pos + (eliasEncode x).length) := by
  have hW := W64_eq
  have hWp := W64_pos
  set w := if x = 0 then W64 else x with hw
  have hw0 : w ≠ 0 := by
    rw [hw]; split_ifs with h
    · omega
    · exact h
  set L := Nat.log2 w with hL
  set l1 := Nat.log2 (L + 1) with hl1
  obtain ⟨b1, b2⟩ := log2_bounds hw0
  obtain ⟨b3, b4⟩ := log2_bounds (show L + 1 ≠ 0 by omega)
  rw [← hL] at b1 b2; rw [← hl1] at b3 b4
  have henc : eliasEncode x = List.replicate l1 false ++ [true] ++ bitsOf l1 (L+1) ++ bitsOf L w := by
    simp only [eliasEncode, ← hw, ← hL, ← hl1, Nat.add_sub_cancel]
  rw [henc] at hz
  have hpos : pos ≤ z.length := by
    by_contra hc
    rw [List.drop_eq_nil_of_le (by omega)] at hz
    simp at hz
  have hz2 : z = z.take pos ++ (List.replicate l1 false ++ [true] ++ bitsOf l1 (L+1) ++ bitsOf L w ++ post) := by
    rw [← hz, List.take_append_drop]
  have htl : (z.take pos).length = pos := by simp [hpos]
  have hlen : (eliasEncode x).length = l1 + 1 + l1 + L := by
    rw [henc]; simp [bitsOf_length]; omega
  rw [hlen, eliasDecode, hz]
  have hu : readUnary (List.replicate l1 false ++ [true] ++ bitsOf l1 (L + 1) ++ bitsOf L w ++ post) = some l1 := by
    rw [← readUnary_replicate l1 (bitsOf l1 (L + 1) ++ bitsOf L w ++ post)]; simp
  simp only [hu, Option.bind_eq_bind, Option.bind_some, Option.pure_def]
  by_cases h0 : l1 = 0
  · rw [if_pos h0]
    have hL0 : L = 0 := by rw [h0] at b4; omega
    rw [hL0] at b1 b2
    have hw1 : w = 1 := by omega
    have hx1 : x = 1 := by
      rw [hw] at hw1; split_ifs at hw1 with h
      · have : 2 ^ 1 ≤ 2 ^ 64 := Nat.pow_le_pow_right (by omega) (by omega)
        omega
      · exact hw1
    rw [h0, hL0, hx1]
  · rw [if_neg h0]
    have hr1 : readInt z (pos + (l1 + 1)) l1 = some ((L+1) % 2 ^ l1) := by
      apply readInt_append (pre := z.take pos ++ (List.replicate l1 false ++ [true])) (post := bitsOf L w ++ post)
      · rw [hz2]; simp [hpos]
      · simp [hpos]
    have hm : (L+1) % 2 ^ l1 + 2 ^ l1 = L + 1 := by
      rw [Nat.mod_eq_sub_mod b3, Nat.mod_eq_of_lt]
      · omega
      · rw [Nat.pow_succ] at b4; omega
    have hr2 : readInt z (pos + (l1 + 1) + l1) L = some (w % 2 ^ L) := by
      apply readInt_append (pre := z.take pos ++ (List.replicate l1 false ++ [true] ++ bitsOf l1 (L+1))) (post := post)
      · rw [hz2]; simp [hpos]
      · simp [hpos, bitsOf_length]; omega
    simp only [hr1, Option.bind_some, hm, Nat.add_sub_cancel, hr2]
    have hm2 : w % 2 ^ L + 2 ^ L = w := by
      rw [Nat.mod_eq_sub_mod b1, Nat.mod_eq_of_lt]
      · omega
      · rw [Nat.pow_succ] at b2; omega
    congr 2
    · by_cases hxz : x = 0
      · have hw64 : w = 2 ^ 64 := by rw [hw, if_pos hxz, hW]
        have hL64 : L = 64 := by rw [hL, hw64]; exact Nat.log2_two_pow
        rw [if_neg (by omega), hL64, hw64, hxz]; simp
      · have hwx : w = x := by rw [hw, if_neg hxz]
        rw [if_pos, hm2, hwx]
        by_contra hc
        have : 2 ^ 64 ≤ 2 ^ L := Nat.pow_le_pow_right (by omega) (by omega)
        omega
    · omega

theorem eliasEncode_pos (x : Nat) : 0 < (eliasEncode x).length := by
  unfold eliasEncode; simp

attribute [local irreducible] eliasEncode wsub

/-! ## enc_vector -/

/-- difference coded for element `i` -/
def edelta (vs : List Nat) (i : Nat) : Nat := wsub (vs.getD i 0) (vs.getD (i-1) 0)

/-- bit position at which the code of element `i` starts (samples have no code) -/
def eoff (dens : Nat) (vs : List Nat) : Nat → Nat
  | 0 => 0
  | i + 1 => eoff dens vs i + if i % dens = 0 then 0 else (eliasEncode (edelta vs i)).length

theorem wsub_lt (a b : Nat) : wsub a b < W64 := by unfold wsub; exact Nat.mod_lt _ W64_pos

/-- what the constructor has written after `i` elements -/
structure Written (dens : Nat) (vs sp : List Nat) (z : List Bool) (i : Nat) : Prop where
  zlen : z.length = eoff dens vs i
  code : ∀ j, j < i → j % dens ≠ 0 → ∃ post, z.drop (eoff dens vs j) = eliasEncode (edelta vs j) ++ post
  splen : sp.length = 2 * ((i + dens - 1) / dens)
  sample : ∀ k, k * dens < i → sp[2*k]? = some (vs.getD (k * dens) 0) ∧ sp[2*k+1]? = some (eoff dens vs (k * dens))

theorem Written.cell {dens : Nat} {vs sp : List Nat} {z : List Bool} {i : Nat} (h : Written dens vs sp z i) {j : Nat} (hj : j < i)
    (hd : j % dens ≠ 0) : eliasDecode z (eoff dens vs j) = some (edelta vs j, eoff dens vs (j+1)) := by
  obtain ⟨post, hp⟩ := h.code j hj hd
  rw [decode_encode hp (wsub_lt _ _), eoff, if_neg hd]

theorem written_loop {dens : Nat} (hd : 2 ≤ dens) (vs : List Nat) (rest : List Nat) (i k v1 : Nat) (sp : List Nat) (z : List Bool)
    (hr : rest = vs.drop i) (hi : i ≤ vs.length) (hk : (i + k) % dens = 0) (hkd : k < dens) (hv : 0 < i → v1 = vs.getD (i-1) 0)
    (hw : Written dens vs sp z i) :
    ∃ sp' z', EncVector.buildLoop dens k v1 sp z rest = (sp' ++ [0, z'.length + 1], z') ∧ Written dens vs sp' z' vs.length := by
  induction rest generalizing i k v1 sp z with
  | nil =>
    have hl : i = vs.length := by
      have := congrArg List.length hr; simp at this; omega
    subst hl
    refine ⟨sp, z, ?_, hw⟩
    cases k <;> simp [EncVector.buildLoop]
  | cons v2 rest ih =>
    have hil : i < vs.length := by
      have := congrArg List.length hr; simp at this; omega
    have hd' := List.drop_eq_getElem_cons hil
    rw [← hr] at hd'
    injection hd' with hv2 hrest
    have hg : vs.getD i 0 = v2 := by rw [hv2]; simp [hil]
    cases k with
    | zero =>
      rw [Nat.add_zero] at hk
      obtain ⟨q, hq⟩ := Nat.dvd_of_mod_eq_zero hk
      have hspl : sp.length = 2 * q := by
        rw [hw.splen, hq, show dens * q + dens - 1 = dens * q + (dens - 1) by omega, Nat.mul_add_div (by omega),
          Nat.div_eq_of_lt (by omega), Nat.add_zero]
      rw [EncVector.buildLoop]
      apply ih (i+1) (dens-1) v2 _ _ hrest (by omega)
      · rw [show i + 1 + (dens - 1) = i + dens by omega, Nat.add_mod_right, hk]
      · omega
      · intro _; rw [Nat.add_sub_cancel, hg]
      · refine ⟨?_, ?_, ?_, ?_⟩
        · rw [eoff, if_pos hk, hw.zlen, Nat.add_zero]
        · intro j hj hjd
          have : j ≠ i := by rintro rfl; exact hjd hk
          exact hw.code j (by omega) hjd
        · rw [List.length_append, hspl, hq, show dens * q + 1 + dens - 1 = dens * (q+1) by rw [Nat.mul_add]; omega,
            Nat.mul_div_cancel_left _ (by omega)]; simp; omega
        · intro m hm
          rcases Nat.lt_or_ge (m * dens) i with hlt | hge
          · obtain ⟨s1, s2⟩ := hw.sample m hlt
            have h1 : 2 * m + 1 < sp.length := by
              by_contra hc
              rw [List.getElem?_eq_none (by omega)] at s2; exact absurd s2 (by simp)
            exact ⟨by rw [List.getElem?_append_left (by omega)]; exact s1, by rw [List.getElem?_append_left h1]; exact s2⟩
          · have hmi : m * dens = i := by omega
            have hmq : m = q := by
              rw [hq, Nat.mul_comm] at hmi; exact Nat.eq_of_mul_eq_mul_left (by omega) hmi
            subst hmq
            rw [hmi, hg]
            constructor
            · rw [List.getElem?_append_right (by omega), hspl]; simp
            · rw [List.getElem?_append_right (by omega), hspl, show 2 * m + 1 - 2 * m = 1 by omega, ← hw.zlen]; simp
    | succ k =>
      have hnd : i % dens ≠ 0 := by
        intro h0
        rw [Nat.add_mod, h0, Nat.zero_add, Nat.mod_mod, Nat.mod_eq_of_lt hkd] at hk
        omega
      have hi0 : 0 < i := by
        rcases Nat.eq_zero_or_pos i with h | h
        · subst h; simp at hnd
        · exact h
      have hdel : wsub v2 v1 = edelta vs i := by rw [edelta, hg, hv hi0]
      rw [EncVector.buildLoop, hdel]
      apply ih (i+1) k v2 _ _ hrest (by omega)
      · rw [← hk]; congr 1; omega
      · omega
      · intro _; rw [Nat.add_sub_cancel, hg]
      · refine ⟨?_, ?_, ?_, ?_⟩
        · rw [List.length_append, eoff, if_neg hnd, hw.zlen]
        · intro j hj hjd
          rcases Nat.lt_or_ge j i with hlt | hge
          · obtain ⟨post, hp⟩ := hw.code j hlt hjd
            have hle : eoff dens vs j ≤ z.length := by
              by_contra hc
              rw [List.drop_eq_nil_of_le (by omega)] at hp
              have h1 := congrArg List.length hp
              have h2 := eliasEncode_pos (edelta vs j)
              rw [List.length_nil, List.length_append] at h1
              omega
            exact ⟨post ++ eliasEncode (edelta vs i), by rw [List.drop_append_of_le_length hle, hp, List.append_assoc]⟩
          · have hji : j = i := by omega
            subst hji
            exact ⟨[], by rw [← hw.zlen, List.drop_left, List.append_nil]⟩
        · rw [hw.splen]
          congr 1
          obtain ⟨q, r, hq, hr1, hr2⟩ : ∃ q r, i = dens * q + r ∧ 0 < r ∧ r < dens :=
            ⟨i / dens, i % dens, (Nat.div_add_mod i dens).symm, by omega, Nat.mod_lt _ (by omega)⟩
          rw [hq, show dens * q + r + dens - 1 = dens * (q+1) + (r - 1) by rw [Nat.mul_add]; omega,
            show dens * q + r + 1 + dens - 1 = dens * (q+1) + r by rw [Nat.mul_add]; omega,
            Nat.mul_add_div (by omega), Nat.mul_add_div (by omega), Nat.div_eq_of_lt hr2, Nat.div_eq_of_lt (by omega)]
        · intro m hm
          have : m * dens ≠ i := by rintro rfl; simp at hnd
          exact hw.sample m (by omega)

/-- the encoded vector holds `vs` -/
structure EncRep (E : EncVector) (vs : List Nat) : Prop where
  dens : 2 ≤ E.dens
  size : E.size = vs.length
  cell : ∀ j, j < vs.length → j % E.dens ≠ 0 → eliasDecode E.z (eoff E.dens vs j) = some (edelta vs j, eoff E.dens vs (j+1))
  sample : ∀ k, k * E.dens < vs.length →
    E.sp[2*k]? = some (vs.getD (k * E.dens) 0) ∧ E.sp[2*k+1]? = some (eoff E.dens vs (k * E.dens))

theorem EncVector.build_rep {dens : Nat} (hd : 2 ≤ dens) (vs : List Nat) : EncRep (EncVector.build dens vs) vs := by
  by_cases hn : vs = []
  · subst hn
    refine ⟨hd, rfl, ?_, ?_⟩ <;> intro j hj <;> simp at hj
  · rw [EncVector.build, if_neg hn]
    obtain ⟨sp', z', h1, h2⟩ := written_loop hd vs vs 0 0 (vs.headD 0) [] [] (by simp) (by omega) (by simp) (by omega) (by omega)
      ⟨by simp [eoff], by intro j hj; omega, by simp; omega, by intro k hk; omega⟩
    dsimp only
    rw [h1]
    refine ⟨hd, rfl, fun j hj hjd => h2.cell hj hjd, fun k hk => ?_⟩
    obtain ⟨s1, s2⟩ := h2.sample k hk
    have h1 : 2 * k + 1 < sp'.length := by
      by_contra hc
      rw [List.getElem?_eq_none (by omega)] at s2; exact absurd s2 (by simp)
    exact ⟨by dsimp only; rw [List.getElem?_append_left (by omega)]; exact s1,
      by dsimp only; rw [List.getElem?_append_left h1]; exact s2⟩

end Sri
