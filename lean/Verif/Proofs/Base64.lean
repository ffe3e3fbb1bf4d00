import Mathlib.Data.List.Basic
import Verif.SpecText
import Verif.Model.Base64
/-! # base64.h: encoding and decoding -/
namespace Sri
set_option autoImplicit false
namespace Base64

theorem W32_mod : W32 % 3 = 1 := by decide
attribute [local irreducible] W32

/-! ## Characters and bits -/

theorem chars_get : ∀ url : Bool, ∀ v < 64, (chars url)[v]? = some (base64Char url v) := by decide +kernel

theorem posOfChar_char : ∀ url : Bool, ∀ v < 64, posOfChar (base64Char url v) = some v := by decide +kernel

theorem char_ne : ∀ url : Bool, ∀ v < 64, base64Char url v ≠ '='.toNat ∧ base64Char url v ≠ '.'.toNat ∧ base64Char url v ≠ '\n'.toNat ∧ base64Char url v < 256 := by
  decide +kernel

theorem and_fc : ∀ a < 256, (a &&& 0xfc) >>> 2 = a / 4 := by decide +kernel
theorem and_03 : ∀ a < 256, (a &&& 0x03) <<< 4 = a % 4 * 16 := by decide +kernel
theorem and_f0 : ∀ a < 256, (a &&& 0xf0) >>> 4 = a / 16 := by decide +kernel
theorem and_0f : ∀ a < 256, (a &&& 0x0f) <<< 2 = a % 16 * 4 := by decide +kernel
theorem and_c0 : ∀ a < 256, (a &&& 0xc0) >>> 6 = a / 64 := by decide +kernel
theorem and_3f : ∀ a < 256, a &&& 0x3f = a % 64 := by decide +kernel
theorem shl_2 : ∀ p < 64, p <<< 2 = p * 4 := by decide +kernel
theorem and_30 : ∀ p < 64, (p &&& 0x30) >>> 4 = p / 16 := by decide +kernel
theorem and_0f4 : ∀ p < 64, (p &&& 0x0f) <<< 4 = p % 16 * 16 := by decide +kernel
theorem and_3c : ∀ p < 64, (p &&& 0x3c) >>> 2 = p / 4 := by decide +kernel
theorem and_036 : ∀ p < 64, (p &&& 0x03) <<< 6 = p % 4 * 64 := by decide +kernel

/-! ## Groups of three bytes -/

/-- the text of a string by groups: with padding (`pad`) or without -/
def text (url pad : Bool) : List Nat → List Nat
  | [] => []
  | [a] => base64Char url (a / 4) :: base64Char url (a % 4 * 16) :: (if pad then [base64Pad url, base64Pad url] else [])
  | [a, b] => base64Char url (a / 4) :: base64Char url (a % 4 * 16 + b / 16) :: base64Char url (b % 16 * 4) :: (if pad then [base64Pad url] else [])
  | a :: b :: c :: t =>
    base64Char url (a / 4) :: base64Char url (a % 4 * 16 + b / 16) :: base64Char url (b % 16 * 4 + c / 64) :: base64Char url (c % 64) :: text url pad t

theorem text_pad (url : Bool) : ∀ s : List Nat, IsBytes s → text url true s = base64Text url s
  | [], _ => rfl
  | [a], h => by
    have ha : a < 256 := h a (by simp)
    simp only [text, base64Text, base64Digits, List.map_cons, List.map_nil, if_true]
    rw [show a * 65536 / 262144 = a / 4 by omega, show a * 65536 / 4096 % 64 = a % 4 * 16 by omega]
  | [a, b], h => by
    have ha : a < 256 := h a (by simp)
    have hb : b < 256 := h b (by simp)
    simp only [text, base64Text, base64Digits, List.map_cons, List.map_nil, if_true]
    rw [show (a * 65536 + b * 256) / 262144 = a / 4 by omega, show (a * 65536 + b * 256) / 4096 % 64 = a % 4 * 16 + b / 16 by omega,
      show (a * 65536 + b * 256) / 64 % 64 = b % 16 * 4 by omega]
  | a :: b :: c :: t, h => by
    have ha : a < 256 := h a (by simp)
    have hb : b < 256 := h b (by simp)
    have hc : c < 256 := h c (by simp)
    have ih := text_pad url t (fun x hx => h x (by simp [hx]))
    simp only [text, base64Text, base64Digits, List.map_cons] at ih ⊢
    rw [show (a * 65536 + b * 256 + c) / 262144 = a / 4 by omega, show (a * 65536 + b * 256 + c) / 4096 % 64 = a % 4 * 16 + b / 16 by omega,
      show (a * 65536 + b * 256 + c) / 64 % 64 = b % 16 * 4 + c / 64 by omega, show (a * 65536 + b * 256 + c) % 64 = c % 64 by omega, ih]

theorem text_bare (url : Bool) : ∀ s : List Nat, IsBytes s → text url false s = base64Bare url s
  | [], _ => rfl
  | [a], h => by
    have ha : a < 256 := h a (by simp)
    simp only [text, base64Bare, base64Digits, List.filterMap_cons, List.filterMap_nil, id, List.map_cons, List.map_nil, Bool.false_eq_true, if_false]
    rw [show a * 65536 / 262144 = a / 4 by omega, show a * 65536 / 4096 % 64 = a % 4 * 16 by omega]
  | [a, b], h => by
    have ha : a < 256 := h a (by simp)
    have hb : b < 256 := h b (by simp)
    simp only [text, base64Bare, base64Digits, List.filterMap_cons, List.filterMap_nil, id, List.map_cons, List.map_nil, Bool.false_eq_true, if_false]
    rw [show (a * 65536 + b * 256) / 262144 = a / 4 by omega, show (a * 65536 + b * 256) / 4096 % 64 = a % 4 * 16 + b / 16 by omega,
      show (a * 65536 + b * 256) / 64 % 64 = b % 16 * 4 by omega]
  | a :: b :: c :: t, h => by
    have ha : a < 256 := h a (by simp)
    have hb : b < 256 := h b (by simp)
    have hc : c < 256 := h c (by simp)
    have ih := text_bare url t (fun x hx => h x (by simp [hx]))
    simp only [text, base64Bare, base64Digits, List.filterMap_cons, id, List.map_cons] at ih ⊢
    rw [show (a * 65536 + b * 256 + c) / 262144 = a / 4 by omega, show (a * 65536 + b * 256 + c) / 4096 % 64 = a % 4 * 16 + b / 16 by omega,
      show (a * 65536 + b * 256 + c) / 64 % 64 = b % 16 * 4 + c / 64 by omega, show (a * 65536 + b * 256 + c) % 64 = c % 64 by omega, ih]

/-! ## Encoding -/

theorem get_of_drop {α : Type} {l r : List α} {pos : Nat} (h : l.drop pos = r) (i : Nat) : l[pos + i]? = r[i]? := by
  rw [← h, List.getElem?_drop]

theorem length_of_drop {α : Type} {l r : List α} {pos : Nat} (h : l.drop pos = r) : l.length - pos = r.length := by
  rw [← h, List.length_drop]

theorem encodeLoop_eq (url : Bool) {bytes : List Nat} (hb : IsBytes bytes) (hn : bytes.length < W32) :
    ∀ (fuel pos : Nat) (rest ret : List Nat), rest.length < fuel → bytes.drop pos = rest → pos % 3 = 0 →
    encodeLoop (chars url) (base64Pad url) bytes fuel pos ret = some (ret ++ text url true rest)
  | 0, _, _, _, h, _, _ => by omega
  | fuel + 1, pos, rest, ret, hf, hd, h3 => by
    have hW := W32_mod
    have hlen := length_of_drop hd
    have hmem : ∀ c ∈ rest, c < 256 := fun c hc => hb c (by rw [← hd] at hc; exact List.mem_of_mem_drop hc)
    unfold encodeLoop
    match rest, hd, hf, hlen, hmem with
    | [], hd, _, hlen, _ =>
      rw [if_neg (by simp only [List.length_nil] at hlen; omega)]
      simp [text]
    | [a], hd, hf, hlen, hmem =>
      simp only [List.length_cons, List.length_nil] at hlen hf
      have ha := hmem a (by simp)
      have g0 : bytes[pos + 0]? = some a := get_of_drop hd 0
      rw [if_pos (by omega), Nat.mod_eq_of_lt (by omega : pos + 0 < W32), Nat.mod_eq_of_lt (by omega : pos + 1 < W32),
        Nat.mod_eq_of_lt (by omega : pos + 3 < W32)]
      simp only [show ¬ pos + 1 < bytes.length by omega, if_false, g0, and_fc a ha, and_03 a ha, chars_get url (a / 4) (by omega), chars_get url (a % 4 * 16) (by omega), Option.bind_eq_bind,
        Option.bind_some, Option.pure_def]
      rw [encodeLoop_eq url hb hn fuel (pos + 3) [] _ (by simp; omega) (by
        rw [← List.drop_drop, hd]; rfl) (by omega)]
      simp [text]
    | [a, b], hd, hf, hlen, hmem =>
      simp only [List.length_cons, List.length_nil] at hlen hf
      have ha := hmem a (by simp)
      have hb' := hmem b (by simp)
      have g0 : bytes[pos + 0]? = some a := get_of_drop hd 0
      have g1 : bytes[pos + 1]? = some b := get_of_drop hd 1
      rw [if_pos (by omega), Nat.mod_eq_of_lt (by omega : pos + 0 < W32), Nat.mod_eq_of_lt (by omega : pos + 1 < W32),
        Nat.mod_eq_of_lt (by omega : pos + 2 < W32), Nat.mod_eq_of_lt (by omega : pos + 3 < W32)]
      simp only [show pos + 1 < bytes.length by omega, show ¬ pos + 2 < bytes.length by omega, if_true, if_false, g0, g1, and_fc a ha, and_03 a ha, and_f0 b hb', and_0f b hb', chars_get url (a / 4) (by omega),
        chars_get url (a % 4 * 16 + b / 16) (by omega), chars_get url (b % 16 * 4) (by omega), Option.bind_eq_bind, Option.bind_some, Option.pure_def]
      rw [encodeLoop_eq url hb hn fuel (pos + 3) [] _ (by simp; omega) (by
        rw [← List.drop_drop, hd]; rfl) (by omega)]
      simp [text]
    | a :: b :: c :: t, hd, hf, hlen, hmem =>
      simp only [List.length_cons] at hlen hf
      have ha := hmem a (by simp)
      have hb' := hmem b (by simp)
      have hc := hmem c (by simp)
      have g0 : bytes[pos + 0]? = some a := get_of_drop hd 0
      have g1 : bytes[pos + 1]? = some b := get_of_drop hd 1
      have g2 : bytes[pos + 2]? = some c := get_of_drop hd 2
      rw [if_pos (by omega), Nat.mod_eq_of_lt (by omega : pos + 0 < W32), Nat.mod_eq_of_lt (by omega : pos + 1 < W32),
        Nat.mod_eq_of_lt (by omega : pos + 2 < W32), Nat.mod_eq_of_lt (by omega : pos + 3 < W32)]
      simp only [show pos + 1 < bytes.length by omega, show pos + 2 < bytes.length by omega, if_true, g0, g1, g2, and_fc a ha, and_03 a ha, and_f0 b hb', and_0f b hb', and_c0 c hc, and_3f c hc, chars_get url (a / 4) (by omega),
        chars_get url (a % 4 * 16 + b / 16) (by omega), chars_get url (b % 16 * 4 + c / 64) (by omega), chars_get url (c % 64) (by omega),
        Option.bind_eq_bind, Option.bind_some, Option.pure_def]
      rw [encodeLoop_eq url hb hn fuel (pos + 3) t _ (by omega) (by
        rw [← List.drop_drop, hd]; rfl) (by omega)]
      simp [text]

theorem encode_eq (url : Bool) {s : List Nat} (hb : IsBytes s) (hn : s.length < W32) {fuel : Nat} (hf : s.length < fuel) :
    encode fuel s url = some (base64Text url s) := by
  rw [← text_pad url s hb]
  have h := encodeLoop_eq url hb hn fuel 0 s [] hf rfl rfl
  unfold encode
  have : (if url then '.'.toNat else '='.toNat) = base64Pad url := by cases url <;> rfl
  rw [this, h, List.nil_append]

/-- a string of 2^32 bytes or more: the counter wraps around and never reaches the length -/
theorem encodeLoop_forever (cs : List Nat) (tr : Nat) {bytes : List Nat} (hn : W32 ≤ bytes.length) :
    ∀ (fuel pos : Nat) (ret : List Nat), pos < W32 → encodeLoop cs tr bytes fuel pos ret = none
  | 0, _, _, _ => rfl
  | fuel + 1, pos, ret, hp => by
    have hpos : 0 < W32 := by omega
    unfold encodeLoop
    rw [if_pos (by omega)]
    simp only [encodeLoop_forever cs tr hn fuel _ _ (Nat.mod_lt _ hpos), Option.bind_eq_bind, Option.bind_fun_none]

/-! ## Decoding -/

/-- a character that ends a group -/
def isPad (c : Nat) : Bool := c == '='.toNat || c == '.'.toNat

/-- what decode makes of a text, group by group -/
def groups : List Nat → Option (List Nat)
  | [] => some []
  | [_] => none
  | [a, b] => do
    let p1 ← posOfChar b
    let p0 ← posOfChar a
    return [((p0 <<< 2) + ((p1 &&& 0x30) >>> 4)) % 256]
  | [a, b, c] => do
    let p1 ← posOfChar b
    let p0 ← posOfChar a
    if isPad c then return [((p0 <<< 2) + ((p1 &&& 0x30) >>> 4)) % 256]
    else do
      let p2 ← posOfChar c
      return [((p0 <<< 2) + ((p1 &&& 0x30) >>> 4)) % 256, (((p1 &&& 0x0f) <<< 4) + ((p2 &&& 0x3c) >>> 2)) % 256]
  | a :: b :: c :: d :: t => do
    let p1 ← posOfChar b
    let p0 ← posOfChar a
    let g ← (if isPad c then some [((p0 <<< 2) + ((p1 &&& 0x30) >>> 4)) % 256]
      else do
        let p2 ← posOfChar c
        if isPad d then return [((p0 <<< 2) + ((p1 &&& 0x30) >>> 4)) % 256, (((p1 &&& 0x0f) <<< 4) + ((p2 &&& 0x3c) >>> 2)) % 256]
        else do
          let p3 ← posOfChar d
          return [((p0 <<< 2) + ((p1 &&& 0x30) >>> 4)) % 256, (((p1 &&& 0x0f) <<< 4) + ((p2 &&& 0x3c) >>> 2)) % 256,
            (((p2 &&& 0x03) <<< 6) + p3) % 256])
    let r ← groups t
    return g ++ r

theorem pad_iff (c : Nat) : (some c ≠ some '='.toNat ∧ some c ≠ some '.'.toNat) ↔ isPad c = false := by
  simp [isPad]

theorem decodeLoop_eq (s : List Nat) :
    ∀ (fuel pos : Nat) (rest ret : List Nat), rest.length < fuel → s.drop pos = rest →
    decodeLoop s fuel pos ret = (groups rest).map (ret ++ ·)
  | 0, _, _, _, h, _ => by omega
  | fuel + 1, pos, rest, ret, hf, hd => by
    have hlen := length_of_drop hd
    unfold decodeLoop
    match rest, hd, hf, hlen with
    | [], hd, _, hlen =>
      rw [if_neg (by simp only [List.length_nil] at hlen; omega)]
      simp [groups]
    | [a], hd, hf, hlen =>
      simp only [List.length_cons, List.length_nil] at hlen hf
      have g1 : s[pos + 1]? = none := get_of_drop hd 1
      rw [if_pos (by omega), g1]
      simp [groups]
    | [a, b], hd, hf, hlen =>
      simp only [List.length_cons, List.length_nil] at hlen hf
      have g0 : s[pos + 0]? = some a := get_of_drop hd 0
      have g1 : s[pos + 1]? = some b := get_of_drop hd 1
      have g2 : s[pos + 2]? = none := get_of_drop hd 2
      rw [if_pos (by omega), g0, g1]
      simp only [show ¬ pos + 2 < s.length by omega, false_and, if_false, Option.bind_some, groups, Option.bind_eq_bind, Option.pure_def]
      cases posOfChar b with
      | none => rfl
      | some p1 =>
        cases posOfChar a with
        | none => rfl
        | some p0 =>
          simp only [Option.bind_some, Option.map_some]
          rw [decodeLoop_eq s fuel (pos + 4) [] _ (by simp; omega) (by rw [← List.drop_drop, hd]; rfl)]
          simp [groups]
    | [a, b, c], hd, hf, hlen =>
      simp only [List.length_cons, List.length_nil] at hlen hf
      have g0 : s[pos + 0]? = some a := get_of_drop hd 0
      have g1 : s[pos + 1]? = some b := get_of_drop hd 1
      have g2 : s[pos + 2]? = some c := get_of_drop hd 2
      have step : ∀ r, decodeLoop s fuel (pos + 4) r = some r := by
        intro r
        rw [decodeLoop_eq s fuel (pos + 4) [] r (by simp; omega) (by rw [← List.drop_drop, hd]; rfl)]
        simp [groups]
      rw [if_pos (by omega), g0, g1, g2]
      simp only [show pos + 2 < s.length by omega, show ¬ pos + 3 < s.length by omega, true_and, false_and, if_false, pad_iff, Option.bind_some,
        groups, Option.bind_eq_bind, Option.pure_def, step]
      cases posOfChar b with
      | none => rfl
      | some p1 =>
        cases posOfChar a with
        | none => rfl
        | some p0 =>
          cases hc : isPad c with
          | true => simp
          | false => cases posOfChar c with
            | none => simp
            | some p2 => simp
    | a :: b :: c :: d :: t, hd, hf, hlen =>
      simp only [List.length_cons] at hlen hf
      have g0 : s[pos + 0]? = some a := get_of_drop hd 0
      have g1 : s[pos + 1]? = some b := get_of_drop hd 1
      have g2 : s[pos + 2]? = some c := get_of_drop hd 2
      have g3 : s[pos + 3]? = some d := get_of_drop hd 3
      have step : ∀ r, decodeLoop s fuel (pos + 4) r = (groups t).map (r ++ ·) := by
        intro r
        exact decodeLoop_eq s fuel (pos + 4) t r (by omega) (by rw [← List.drop_drop, hd]; rfl)
      rw [if_pos (by omega), g0, g1, g2, g3]
      simp only [show pos + 2 < s.length by omega, show pos + 3 < s.length by omega, true_and, pad_iff, Option.bind_some,
        groups, Option.bind_eq_bind, Option.pure_def, step]
      cases posOfChar b with
      | none => rfl
      | some p1 =>
        cases posOfChar a with
        | none => rfl
        | some p0 =>
          cases hc : isPad c with
          | true => cases groups t <;> simp
          | false => cases posOfChar c with
            | none => simp
            | some p2 =>
              cases hd : isPad d with
              | true => cases groups t <;> simp
              | false => cases posOfChar d with
                | none => simp
                | some p3 => cases groups t <;> simp

theorem decode_eq (e : List Nat) : decode e false = groups e := by
  unfold decode
  cases e with
  | nil => rfl
  | cons a t =>
    rw [if_neg (by simp)]
    simp only [Bool.false_eq_true, if_false]
    rw [decodeLoop_eq (a :: t) _ 0 (a :: t) [] (by omega) rfl]
    cases groups (a :: t) <;> simp

theorem decode_lines (e : List Nat) : decode e true = groups (e.filter (fun c => c != '\n'.toNat)) := by
  unfold decode
  cases e with
  | nil => rfl
  | cons a t =>
    rw [if_neg (by simp)]
    simp only [if_true]
    generalize List.filter (fun c => c != '\n'.toNat) (a :: t) = l
    rw [decodeLoop_eq l _ 0 l [] (by omega) rfl]
    cases groups l <;> simp

theorem isPad_char (url : Bool) {v : Nat} (h : v < 64) : isPad (base64Char url v) = false := by
  have := char_ne url v h
  simp only [isPad, Bool.or_eq_false_iff, beq_eq_false_iff_ne]
  exact ⟨this.1, this.2.1⟩

theorem isPad_pad (url : Bool) : isPad (base64Pad url) = true := by cases url <;> decide

theorem dec1 {a b : Nat} (ha : a < 256) (hb : b < 16) :
    (((a / 4) <<< 2) + (((a % 4 * 16 + b) &&& 0x30) >>> 4)) % 256 = a := by
  rw [shl_2 _ (by omega), and_30 _ (by omega)]; omega

theorem dec2 {a b c : Nat} (hb : b < 256) (hc : c < 4) :
    ((((a % 4 * 16 + b / 16) &&& 0x0f) <<< 4) + (((b % 16 * 4 + c) &&& 0x3c) >>> 2)) % 256 = b := by
  rw [and_0f4 _ (by omega), and_3c _ (by omega)]; omega

theorem dec3 {b c : Nat} (hc : c < 256) :
    ((((b % 16 * 4 + c / 64) &&& 0x03) <<< 6) + c % 64) % 256 = c := by
  rw [and_036 _ (by omega)]; omega

/-- the text of a string before any other text: its bytes first -/
theorem groups_text_append (url : Bool) (e : List Nat) : ∀ s : List Nat, IsBytes s → groups (text url true s ++ e) = (groups e).map (s ++ ·)
  | [], _ => by cases h : groups e <;> simp [text, h]
  | [a], h => by
    have ha : a < 256 := h a (by simp)
    have d1 := dec1 (a := a) (b := 0) ha (by omega)
    rw [Nat.add_zero] at d1
    simp only [text, if_true, List.cons_append, List.nil_append, groups, posOfChar_char url (a / 4) (by omega), posOfChar_char url (a % 4 * 16) (by omega),
      isPad_pad, Option.bind_eq_bind, Option.bind_some, Option.pure_def, d1]
    cases groups e <;> rfl
  | [a, b], h => by
    have ha : a < 256 := h a (by simp)
    have hb : b < 256 := h b (by simp)
    have d1 := dec1 (a := a) (b := b / 16) ha (by omega)
    have d2 := dec2 (a := a) (b := b) (c := 0) hb (by omega)
    rw [Nat.add_zero] at d2
    simp only [text, if_true, List.cons_append, List.nil_append, groups, posOfChar_char url (a / 4) (by omega),
      posOfChar_char url (a % 4 * 16 + b / 16) (by omega), posOfChar_char url (b % 16 * 4) (by omega), isPad_char url (show b % 16 * 4 < 64 by omega),
      isPad_pad, Option.bind_eq_bind, Option.bind_some, Option.pure_def, d1, d2, Bool.false_eq_true, if_false]
    cases groups e <;> rfl
  | a :: b :: c :: t, h => by
    have ha : a < 256 := h a (by simp)
    have hb : b < 256 := h b (by simp)
    have hc : c < 256 := h c (by simp)
    have d1 := dec1 (a := a) (b := b / 16) ha (by omega)
    have d2 := dec2 (a := a) (b := b) (c := c / 64) hb (by omega)
    have d3 := dec3 (b := b) hc
    have ih := groups_text_append url e t (fun x hx => h x (by simp [hx]))
    simp only [text, List.cons_append, groups, posOfChar_char url (a / 4) (by omega),
      posOfChar_char url (a % 4 * 16 + b / 16) (by omega), posOfChar_char url (b % 16 * 4 + c / 64) (by omega), posOfChar_char url (c % 64) (by omega),
      isPad_char url (show b % 16 * 4 + c / 64 < 64 by omega), isPad_char url (show c % 64 < 64 by omega),
      Option.bind_eq_bind, Option.bind_some, Option.pure_def, d1, d2, d3, Bool.false_eq_true, if_false, ih]
    cases groups e <;> rfl

theorem groups_text (url pad : Bool) : ∀ s : List Nat, IsBytes s → groups (text url pad s) = some s := by
  cases pad with
  | true =>
    intro s h
    have := groups_text_append url [] s h
    simpa [groups] using this
  | false =>
    intro s
    induction s using text.induct with
    | case1 => intro _; rfl
    | case2 a =>
      intro h
      have ha : a < 256 := h a (by simp)
      have d1 := dec1 (a := a) (b := 0) ha (by omega)
      rw [Nat.add_zero] at d1
      simp only [text, Bool.false_eq_true, if_false, groups, posOfChar_char url (a / 4) (by omega), posOfChar_char url (a % 4 * 16) (by omega),
        Option.bind_eq_bind, Option.bind_some, Option.pure_def, d1]
    | case3 a b =>
      intro h
      have ha : a < 256 := h a (by simp)
      have hb : b < 256 := h b (by simp)
      have d1 := dec1 (a := a) (b := b / 16) ha (by omega)
      have d2 := dec2 (a := a) (b := b) (c := 0) hb (by omega)
      rw [Nat.add_zero] at d2
      simp only [text, Bool.false_eq_true, if_false, groups, posOfChar_char url (a / 4) (by omega),
        posOfChar_char url (a % 4 * 16 + b / 16) (by omega), posOfChar_char url (b % 16 * 4) (by omega), isPad_char url (show b % 16 * 4 < 64 by omega),
        Option.bind_eq_bind, Option.bind_some, Option.pure_def, d1, d2]
    | case4 a b c t ih =>
      intro h
      have ha : a < 256 := h a (by simp)
      have hb : b < 256 := h b (by simp)
      have hc : c < 256 := h c (by simp)
      have d1 := dec1 (a := a) (b := b / 16) ha (by omega)
      have d2 := dec2 (a := a) (b := b) (c := c / 64) hb (by omega)
      have d3 := dec3 (b := b) hc
      have ih := ih (fun x hx => h x (by simp [hx]))
      simp only [text, groups, posOfChar_char url (a / 4) (by omega),
        posOfChar_char url (a % 4 * 16 + b / 16) (by omega), posOfChar_char url (b % 16 * 4 + c / 64) (by omega), posOfChar_char url (c % 64) (by omega),
        isPad_char url (show b % 16 * 4 + c / 64 < 64 by omega), isPad_char url (show c % 64 < 64 by omega),
        Option.bind_eq_bind, Option.bind_some, Option.pure_def, d1, d2, d3, Bool.false_eq_true, if_false, ih]
      rfl

theorem posOfChar_lt {c p : Nat} (h : posOfChar c = some p) : p < 64 := by
  unfold posOfChar at h
  have e1 : 'A'.toNat = 65 := rfl
  have e2 : 'Z'.toNat = 90 := rfl
  have e3 : 'a'.toNat = 97 := rfl
  have e4 : 'z'.toNat = 122 := rfl
  have e5 : '0'.toNat = 48 := rfl
  have e6 : '9'.toNat = 57 := rfl
  split at h
  · simp only [Option.some.injEq] at h; omega
  split at h
  · simp only [Option.some.injEq] at h; omega
  split at h
  · simp only [Option.some.injEq] at h; omega
  split at h
  · simp only [Option.some.injEq] at h; omega
  split at h
  · simp only [Option.some.injEq] at h; omega
  · cases h

/-! ## Lines -/

theorem text_noNewline (url : Bool) : ∀ s : List Nat, IsBytes s → ∀ c ∈ text url true s, c ≠ '\n'.toNat
  | [], _ => by simp [text]
  | [a], h => by
    have ha : a < 256 := h a (by simp)
    have hp : base64Pad url ≠ '\n'.toNat := by cases url <;> decide
    have h1 := (char_ne url (a / 4) (by omega)).2.2.1
    have h2 := (char_ne url (a % 4 * 16) (by omega)).2.2.1
    intro c hc
    simp only [text, if_true, List.mem_cons, List.not_mem_nil, or_false] at hc
    rcases hc with h | h | h | h <;> rw [h] <;> assumption
  | [a, b], h => by
    have ha : a < 256 := h a (by simp)
    have hb : b < 256 := h b (by simp)
    have hp : base64Pad url ≠ '\n'.toNat := by cases url <;> decide
    have h1 := (char_ne url (a / 4) (by omega)).2.2.1
    have h2 := (char_ne url (a % 4 * 16 + b / 16) (by omega)).2.2.1
    have h3 := (char_ne url (b % 16 * 4) (by omega)).2.2.1
    intro c hc
    simp only [text, if_true, List.mem_cons, List.not_mem_nil, or_false] at hc
    rcases hc with h | h | h | h <;> rw [h] <;> assumption
  | a :: b :: c :: t, h => by
    have ha : a < 256 := h a (by simp)
    have hb : b < 256 := h b (by simp)
    have hc : c < 256 := h c (by simp)
    have h1 := (char_ne url (a / 4) (by omega)).2.2.1
    have h2 := (char_ne url (a % 4 * 16 + b / 16) (by omega)).2.2.1
    have h3 := (char_ne url (b % 16 * 4 + c / 64) (by omega)).2.2.1
    have h4 := (char_ne url (c % 64) (by omega)).2.2.1
    have ih := text_noNewline url t (fun x hx => h x (by simp [hx]))
    intro x hx
    simp only [text, List.mem_cons] at hx
    rcases hx with h | h | h | h | h
    · rw [h]; exact h1
    · rw [h]; exact h2
    · rw [h]; exact h3
    · rw [h]; exact h4
    · exact ih x h

theorem text_length (url : Bool) : ∀ s : List Nat, (text url true s).length ≤ 4 * s.length
  | [] => by simp [text]
  | [a] => by simp [text]
  | [a, b] => by simp [text]
  | a :: b :: c :: t => by
    have := text_length url t
    simp only [text, List.length_cons]
    omega

/-- a text in lines of `d` characters -/
def linesOf (d : Nat) : Nat → List Nat → List (List Nat)
  | 0, l => [l]
  | fuel + 1, l => if d < l.length then l.take d :: linesOf d fuel (l.drop d) else [l]

theorem linesOf_flatten (d : Nat) : ∀ (fuel : Nat) (l : List Nat), (linesOf d fuel l).flatten = l
  | 0, l => by simp [linesOf]
  | fuel + 1, l => by
    unfold linesOf
    split
    · rw [List.flatten_cons, linesOf_flatten d fuel, List.take_append_drop]
    · simp

theorem linesOf_ne (d : Nat) : ∀ (fuel : Nat) (l : List Nat), linesOf d fuel l ≠ []
  | 0, l => by simp [linesOf]
  | fuel + 1, l => by
    unfold linesOf
    split <;> simp

theorem linesOf_lengths {d : Nat} (hd : 0 < d) : ∀ (fuel : Nat) (l : List Nat), l.length < fuel → l ≠ [] →
    (∀ x ∈ (linesOf d fuel l).dropLast, x.length = d) ∧ ∀ x ∈ (linesOf d fuel l), x.length ≤ d ∧ x ≠ []
  | 0, l, h, _ => by omega
  | fuel + 1, l, h, hne => by
    unfold linesOf
    split
    · rename_i hlt
      obtain ⟨h1, h2⟩ := linesOf_lengths hd fuel (l.drop d) (by simp; omega) (by
        intro hnil
        have := congrArg List.length hnil
        simp at this
        omega)
      have hlen : (l.take d).length = d := by simp; omega
      have hne' : l.take d ≠ [] := by
        intro hnil
        rw [hnil] at hlen
        simp at hlen
        omega
      constructor
      · intro x hx
        rw [List.dropLast_cons_of_ne_nil (linesOf_ne d fuel _)] at hx
        rcases List.mem_cons.mp hx with rfl | hx
        · exact hlen
        · exact h1 x hx
      · intro x hx
        rcases List.mem_cons.mp hx with rfl | hx
        · exact ⟨by omega, hne'⟩
        · exact h2 x hx
    · rename_i hlt
      constructor
      · intro x hx
        simp at hx
      · intro x hx
        rcases List.mem_singleton.mp hx with rfl
        exact ⟨by omega, hne⟩

theorem breakLoop_eq {d : Nat} (hd : 0 < d) :
    ∀ (fuel : Nat) (pre rest : List Nat), rest.length < fuel →
    breakLoop d fuel (pre.length + d) (pre ++ rest) = some (pre ++ List.intercalate ['\n'.toNat] (linesOf d fuel rest))
  | 0, _, _, h => by omega
  | fuel + 1, pre, rest, h => by
    unfold breakLoop linesOf
    rw [List.length_append]
    by_cases hlt : d < rest.length
    · rw [if_pos (by omega), if_pos hlt]
      have e : (pre ++ rest).take (pre.length + d) ++ '\n'.toNat :: (pre ++ rest).drop (pre.length + d)
          = (pre ++ rest.take d ++ ['\n'.toNat]) ++ rest.drop d := by
        rw [List.take_length_add_append, List.drop_length_add_append]
        simp
      have el : pre.length + d + (d + 1) = (pre ++ rest.take d ++ ['\n'.toNat]).length + d := by
        simp only [List.length_append, List.length_take, List.length_cons, List.length_nil]
        omega
      rw [e, el, breakLoop_eq hd fuel _ _ (by simp; omega)]
      congr 1
      obtain ⟨x, xs, hx⟩ := List.exists_cons_of_ne_nil (linesOf_ne d fuel (rest.drop d))
      rw [hx]
      simp [List.intercalate]
    · rw [if_neg (by omega), if_neg hlt]
      simp [List.intercalate]

theorem insertLinebreaks_eq {d : Nat} (hd : 0 < d) {fuel : Nat} {e : List Nat} (hf : e.length < fuel) :
    insertLinebreaks fuel e d = some (List.intercalate ['\n'.toNat] (linesOf d fuel e)) := by
  unfold insertLinebreaks
  split
  · rename_i h
    have : e = [] := List.length_eq_zero_iff.mp h
    subst this
    cases fuel with
    | zero => simp at hf
    | succ f => simp [linesOf, List.intercalate]
  · have := breakLoop_eq hd fuel [] e hf
    simpa using this

theorem filter_intercalate (c : Nat) : ∀ ls : List (List Nat), (∀ l ∈ ls, ∀ x ∈ l, x ≠ c) →
    (List.intercalate [c] ls).filter (fun x => x != c) = ls.flatten
  | [], _ => by simp [List.intercalate]
  | [l], h => by
    have : ∀ x ∈ l, x ≠ c := h l (by simp)
    simp [List.intercalate, List.filter_eq_self]
    exact this
  | l :: m :: ls, h => by
    have ih := filter_intercalate c (m :: ls) (fun y hy => h y (by simp [hy]))
    have hl : l.filter (fun x => x != c) = l := by
      rw [List.filter_eq_self]
      intro x hx
      simp [h l (by simp) x hx]
    have e : List.intercalate [c] (l :: m :: ls) = l ++ c :: List.intercalate [c] (m :: ls) := by simp [List.intercalate]
    rw [e, List.filter_append, hl, List.filter_cons, if_neg (by simp), ih]
    simp

/-! ## What is accepted -/

theorem posOfChar_iff (c v : Nat) : posOfChar c = some v ↔ v < 64 ∧ ∃ url, c = base64Char url v := by
  constructor
  · intro h
    refine ⟨posOfChar_lt h, ?_⟩
    unfold posOfChar at h
    have e1 : 'A'.toNat = 65 := rfl
    have e2 : 'Z'.toNat = 90 := rfl
    have e3 : 'a'.toNat = 97 := rfl
    have e4 : 'z'.toNat = 122 := rfl
    have e5 : '0'.toNat = 48 := rfl
    have e6 : '9'.toNat = 57 := rfl
    split at h
    · simp only [Option.some.injEq] at h
      refine ⟨false, ?_⟩
      unfold base64Char
      rw [if_pos (by omega)]
      omega
    split at h
    · simp only [Option.some.injEq] at h
      refine ⟨false, ?_⟩
      unfold base64Char
      rw [if_neg (by omega), if_pos (by omega)]
      omega
    split at h
    · simp only [Option.some.injEq] at h
      refine ⟨false, ?_⟩
      unfold base64Char
      rw [if_neg (by omega), if_neg (by omega), if_pos (by omega)]
      omega
    split at h
    · rename_i hc
      simp only [Option.some.injEq] at h
      subst h
      rcases hc with rfl | rfl
      · exact ⟨false, rfl⟩
      · exact ⟨true, rfl⟩
    split at h
    · rename_i hc
      simp only [Option.some.injEq] at h
      subst h
      rcases hc with rfl | rfl
      · exact ⟨false, rfl⟩
      · exact ⟨true, rfl⟩
    · cases h
  · rintro ⟨hv, url, rfl⟩
    exact posOfChar_char url v hv

theorem posOfChar_isSome (c : Nat) : (posOfChar c).isSome = true ↔ IsBase64Digit c := by
  rw [Option.isSome_iff_exists]
  constructor
  · rintro ⟨v, hv⟩
    obtain ⟨h, url, e⟩ := (posOfChar_iff c v).mp hv
    exact ⟨url, v, h, e⟩
  · rintro ⟨url, v, h, e⟩
    exact ⟨v, (posOfChar_iff c v).mpr ⟨h, url, e⟩⟩

theorem isPad_iff (c : Nat) : isPad c = true ↔ IsBase64Pad c := by
  simp only [isPad, Bool.or_eq_true, beq_iff_eq]
  constructor
  · rintro (rfl | rfl)
    · exact ⟨false, rfl⟩
    · exact ⟨true, rfl⟩
  · rintro ⟨url, rfl⟩
    cases url
    · exact Or.inl rfl
    · exact Or.inr rfl

theorem groups_isSome : ∀ e : List Nat, (groups e).isSome = true ↔ LooseBase64 e
  | [] => by simp [groups, LooseBase64]
  | [_] => by simp [groups, LooseBase64]
  | [a, b] => by
    simp only [LooseBase64, ← posOfChar_isSome, groups, Option.bind_eq_bind, Option.pure_def]
    cases posOfChar a <;> cases posOfChar b <;> simp
  | [a, b, c] => by
    simp only [LooseBase64, ← posOfChar_isSome, ← isPad_iff, groups, Option.bind_eq_bind, Option.pure_def]
    cases posOfChar a <;> cases posOfChar b <;> cases posOfChar c <;> cases isPad c <;> simp
  | a :: b :: c :: d :: t => by
    have ih := groups_isSome t
    simp only [LooseBase64, ← posOfChar_isSome, ← isPad_iff, ← ih, groups, Option.bind_eq_bind, Option.pure_def]
    cases posOfChar a <;> cases posOfChar b <;> cases posOfChar c <;> cases isPad c <;> cases posOfChar d <;> cases isPad d <;>
      cases groups t <;> simp

/-- four characters of the alphabet: three bytes, whose text they are -/
theorem groups_full (url : Bool) : ∀ e : List Nat, 4 ∣ e.length → (∀ c ∈ e, ∃ v < 64, c = base64Char url v) →
    ∃ s, groups e = some s ∧ IsBytes s ∧ text url true s = e
  | [], _, _ => ⟨[], rfl, by simp [IsBytes], rfl⟩
  | [_], h, _ => by simp at h
  | [_, _], h, _ => by simp at h
  | [_, _, _], h, _ => by simp at h
  | a :: b :: c :: d :: t, h, hall => by
    obtain ⟨va, ha, rfl⟩ := hall a (by simp)
    obtain ⟨vb, hb, rfl⟩ := hall b (by simp)
    obtain ⟨vc, hc, rfl⟩ := hall c (by simp)
    obtain ⟨vd, hd, rfl⟩ := hall d (by simp)
    obtain ⟨s, h1, h2, h3⟩ := groups_full url t (by simp only [List.length_cons] at h; omega) (fun x hx => hall x (by simp [hx]))
    refine ⟨(va * 4 + vb / 16) :: (vb % 16 * 16 + vc / 4) :: (vc % 4 * 64 + vd) :: s, ?_, ?_, ?_⟩
    · simp only [groups, posOfChar_char url va ha, posOfChar_char url vb hb, posOfChar_char url vc hc, posOfChar_char url vd hd,
        isPad_char url hc, isPad_char url hd, shl_2 va ha, and_30 vb hb, and_0f4 vb hb, and_3c vc hc, and_036 vc hc,
        Option.bind_eq_bind, Option.bind_some, Option.pure_def, Bool.false_eq_true, if_false, h1]
      rw [Nat.mod_eq_of_lt (by omega : va * 4 + vb / 16 < 256), Nat.mod_eq_of_lt (by omega : vb % 16 * 16 + vc / 4 < 256),
        Nat.mod_eq_of_lt (by omega : vc % 4 * 64 + vd < 256)]
      rfl
    · intro x hx
      simp only [List.mem_cons] at hx
      rcases hx with h | h | h | h
      · omega
      · omega
      · omega
      · exact h2 x h
    · simp only [text, h3]
      rw [show (va * 4 + vb / 16) / 4 = va by omega, show (va * 4 + vb / 16) % 4 * 16 + (vb % 16 * 16 + vc / 4) / 16 = vb by omega,
        show (vb % 16 * 16 + vc / 4) % 16 * 4 + (vc % 4 * 64 + vd) / 64 = vc by omega, show (vc % 4 * 64 + vd) % 64 = vd by omega]

/-- nothing looks at the last character of a padded text of one byte -/
theorem groups_last (url : Bool) (x : Nat) : ∀ s : List Nat, IsBytes s → s.length % 3 = 1 → groups ((text url true s).dropLast ++ [x]) = some s
  | [], _, h => by simp at h
  | [a], h, _ => by
    have ha : a < 256 := h a (by simp)
    have d1 := dec1 (a := a) (b := 0) ha (by omega)
    rw [Nat.add_zero] at d1
    simp only [text, if_true, List.dropLast_cons_cons, List.dropLast_singleton, List.cons_append, List.nil_append, groups, posOfChar_char url (a / 4) (by omega),
      posOfChar_char url (a % 4 * 16) (by omega), isPad_pad, Option.bind_eq_bind, Option.bind_some, Option.pure_def, d1]
  | [_, _], _, h => by simp at h
  | a :: b :: c :: t, h, h3 => by
    have ha : a < 256 := h a (by simp)
    have hb : b < 256 := h b (by simp)
    have hc : c < 256 := h c (by simp)
    have d1 := dec1 (a := a) (b := b / 16) ha (by omega)
    have d2 := dec2 (a := a) (b := b) (c := c / 64) hb (by omega)
    have d3 := dec3 (b := b) hc
    have ih := groups_last url x t (fun y hy => h y (by simp [hy])) (by simp only [List.length_cons] at h3; omega)
    have hne : text url true t ≠ [] := by
      intro hnil
      rw [hnil] at ih
      simp [groups] at ih
    obtain ⟨y, ys, hy⟩ := List.exists_cons_of_ne_nil hne
    rw [hy] at ih
    simp only [text, hy, List.dropLast_cons_cons, List.cons_append, groups, posOfChar_char url (a / 4) (by omega),
      posOfChar_char url (a % 4 * 16 + b / 16) (by omega), posOfChar_char url (b % 16 * 4 + c / 64) (by omega), posOfChar_char url (c % 64) (by omega),
      isPad_char url (show b % 16 * 4 + c / 64 < 64 by omega), isPad_char url (show c % 64 < 64 by omega),
      Option.bind_eq_bind, Option.bind_some, Option.pure_def, d1, d2, d3, Bool.false_eq_true, if_false, ih]
    rfl

end Base64
end Sri
