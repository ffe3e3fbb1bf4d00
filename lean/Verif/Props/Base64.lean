import Verif.Proofs.Base64
/-! # C61: base64 texts

"The base64 text of a string is the one of RFC 4648, decoding it gives the string back, and a text that is not base64 is refused."

The first two parts hold for strings shorter than 2^32 bytes; `base64Text` of SpecText.lean is the standard's definition on 24-bit groups.
For longer strings the encoder's counter, an unsigned int, wraps around and the loop has no end. The decoder accepts exactly the texts of
`LooseBase64`, among them texts that are not base64. -/
namespace Sri
set_option autoImplicit false

/-- C61, encoding: a string below 2^32 bytes has the text of the standard, in both alphabets; the loop has ended after as many rounds as
    there are bytes -/
theorem c61_encode_partial (url : Bool) (s : List Nat) (hs : IsBytes s) (hn : s.length < 2 ^ 32) (fuel : Nat) (hf : s.length < fuel) :
    Base64.encode fuel s url = some (base64Text url s) :=
  Base64.encode_eq url hs hn hf

/-- C61, a string of 2^32 bytes or more: the encoder does not return, however many rounds it is given -/
theorem c61_encode_violation (url : Bool) (s : List Nat) (hn : 2 ^ 32 ≤ s.length) (fuel : Nat) : Base64.encode fuel s url = none :=
  Base64.encodeLoop_forever _ _ hn fuel 0 [] (by simp [W32])

/-- C61, round trip: the text of a string decodes to the string, with and without padding, in both alphabets, whether or not line breaks
    are removed -/
theorem c61_round_trip (url rm : Bool) (s : List Nat) (hs : IsBytes s) :
    Base64.decode (base64Text url s) rm = some s ∧ Base64.decode (base64Bare url s) false = some s := by
  constructor
  · rw [← Base64.text_pad url s hs]
    cases rm with
    | false => rw [Base64.decode_eq, Base64.groups_text url true s hs]
    | true =>
      rw [Base64.decode_lines, List.filter_eq_self.mpr, Base64.groups_text url true s hs]
      intro c hc
      simpa using Base64.text_noNewline url s hs c hc
  · rw [← Base64.text_bare url s hs, Base64.decode_eq, Base64.groups_text url false s hs]

/-- C61, round trip through the functions themselves -/
theorem c61_encode_decode_partial (url rm : Bool) (s : List Nat) (hs : IsBytes s) (hn : s.length < 2 ^ 32) (fuel : Nat) (hf : s.length < fuel) :
    ((Base64.encode fuel s url).bind (Base64.decode · rm)) = some s := by
  rw [c61_encode_partial url s hs hn fuel hf]
  exact (c61_round_trip url rm s hs).1

/-- C61, lines: the PEM (64) and MIME (76) encoders cut the text of a non-empty string into lines, all of the given length but the last,
    which is not longer and not empty; the lines decode to the string when line breaks are removed -/
theorem c61_lines_partial (d : Nat) (hd : 0 < d) (s : List Nat) (hs : IsBytes s) (hn : s.length < 2 ^ 32) (h0 : s ≠ [])
    (fuel : Nat) (hf : 4 * s.length < fuel) :
    ∃ lines : List (List Nat),
      Base64.encodeLines fuel d s = some (List.intercalate ['\n'.toNat] lines) ∧
      lines.flatten = base64Text false s ∧
      (∀ l ∈ lines.dropLast, l.length = d) ∧ (∀ l ∈ lines, l.length ≤ d ∧ l ≠ []) ∧
      Base64.decode (List.intercalate ['\n'.toNat] lines) true = some s := by
  have htext := Base64.text_pad false s hs
  have hlen : (base64Text false s).length < fuel := by
    have := Base64.text_length false s
    rw [htext] at this
    omega
  have hne : base64Text false s ≠ [] := by
    intro hnil
    have := (c61_round_trip false false s hs).1
    rw [hnil] at this
    exact h0 (Option.some.inj this).symm
  have hlines := Base64.linesOf_lengths hd fuel _ hlen hne
  refine ⟨Base64.linesOf d fuel (base64Text false s), ?_, Base64.linesOf_flatten d fuel _, hlines.1, hlines.2, ?_⟩
  · unfold Base64.encodeLines
    rw [c61_encode_partial false s hs hn fuel (by omega)]
    exact Base64.insertLinebreaks_eq hd hlen
  · rw [Base64.decode_lines, Base64.filter_intercalate, Base64.linesOf_flatten, ← htext, Base64.groups_text false true s hs]
    intro l hl x hx
    have : x ∈ (Base64.linesOf d fuel (base64Text false s)).flatten := List.mem_flatten.mpr ⟨l, hl, hx⟩
    rw [Base64.linesOf_flatten, ← htext] at this
    exact Base64.text_noNewline false s hs x this

/-- C61, what is accepted: exactly the texts of `LooseBase64` -/
theorem c61_accepts (e : List Nat) : (Base64.decode e false).isSome = true ↔ LooseBase64 e := by
  rw [Base64.decode_eq]
  exact Base64.groups_isSome e

/-- C61, texts of whole groups without padding: each is the text of the string it decodes to, so that no two of them decode to the same -/
theorem c61_reencode (url : Bool) (e : List Nat) (h4 : 4 ∣ e.length) (hd : ∀ c ∈ e, ∃ v < 64, c = base64Char url v) :
    ∃ s, Base64.decode e false = some s ∧ IsBytes s ∧ base64Text url s = e := by
  obtain ⟨s, h1, h2, h3⟩ := Base64.groups_full url e h4 hd
  exact ⟨s, by rw [Base64.decode_eq, h1], h2, by rw [← Base64.text_pad url s h2, h3]⟩

/-- C61, texts one after another: padding inside a text is no error, what follows is read as if it stood alone -/
theorem c61_concatenation (url : Bool) (s e : List Nat) (hs : IsBytes s) :
    Base64.decode (base64Text url s ++ e) false = (Base64.decode e false).map (s ++ ·) := by
  rw [← Base64.text_pad url s hs, Base64.decode_eq, Base64.decode_eq, Base64.groups_text_append url e s hs]

/-- C61, a text that is not base64 is accepted: in the text of any string of 1, 4, 7, ... bytes the last padding character may be replaced
    by any character at all -/
theorem c61_refuses_violation (url : Bool) (s : List Nat) (hs : IsBytes s) (h : s.length % 3 = 1) (x : Nat) :
    Base64.decode ((base64Text url s).dropLast ++ [x]) false = some s := by
  rw [← Base64.text_pad url s hs, Base64.decode_eq, Base64.groups_last url x s hs h]

-- the test vectors of RFC 4648, section 10: "foobar", "fooba", "foob"
example : base64Text false ("foobar".toList.map Char.toNat) = "Zm9vYmFy".toList.map Char.toNat := by decide
example : base64Text false ("fooba".toList.map Char.toNat) = "Zm9vYmE=".toList.map Char.toNat := by decide
example : base64Text false ("foob".toList.map Char.toNat) = "Zm9vYg==".toList.map Char.toNat := by decide
example : base64Text true [251, 255] = "-_8.".toList.map Char.toNat := by decide
-- the hypotheses of `c61_encode_partial` and of `c61_lines_partial`
example : IsBytes [102, 111, 111, 98] ∧ [102, 111, 111, 98].length < 2 ^ 32 ∧ ([102, 111, 111, 98] : List Nat) ≠ [] := by
  refine ⟨?_, ?_, ?_⟩
  · unfold IsBytes; decide
  · decide
  · decide
example : Base64.encode 5 [102, 111, 111, 98] false = some ("Zm9vYg==".toList.map Char.toNat) := by decide +kernel
example : Base64.encodeLines 17 3 [102, 111, 111, 98] = some ("Zm9\nvYg\n==".toList.map Char.toNat) := by decide +kernel
-- a text that is refused, one that should be
example : Base64.decode ("Zm9!".toList.map Char.toNat) false = none := by decide +kernel
example : Base64.decode ("Zg=!".toList.map Char.toNat) false = some [102] := by decide +kernel
-- a string for `c61_encode_violation`
example : ∃ s : List Nat, IsBytes s ∧ 2 ^ 32 ≤ s.length :=
  ⟨List.replicate (2 ^ 32) 7, fun c hc => by rw [List.eq_of_mem_replicate hc]; decide, Nat.le_of_eq List.length_replicate.symm⟩

end Sri
