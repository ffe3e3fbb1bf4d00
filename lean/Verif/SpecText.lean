import Verif.Spec
/-! # Vocabulary for the text formats of the benchmarks: base64, lines and reports -/
namespace Sri
set_option autoImplicit false

/-- a string of bytes -/
def IsBytes (s : List Nat) : Prop := ∀ c ∈ s, c < 256

/-- RFC 4648, section 4: the bits of a string in groups of 24, each group as four numbers of 6 bits; the last group is filled up with zero
    bits, and the numbers that have none of its own bits are missing (`none`) -/
def base64Digits : List Nat → List (Option Nat)
  | [] => []
  | [a] => let v := a * 65536; [some (v / 262144), some (v / 4096 % 64), none, none]
  | [a, b] => let v := a * 65536 + b * 256; [some (v / 262144), some (v / 4096 % 64), some (v / 64 % 64), none]
  | a :: b :: c :: t =>
    let v := a * 65536 + b * 256 + c
    some (v / 262144) :: some (v / 4096 % 64) :: some (v / 64 % 64) :: some (v % 64) :: base64Digits t

/-- RFC 4648, tables 1 and 2: the character of a number below 64, in the usual alphabet and in the one for URLs -/
def base64Char (url : Bool) (v : Nat) : Nat :=
  if v < 26 then 'A'.toNat + v
  else if v < 52 then 'a'.toNat + (v - 26)
  else if v < 62 then '0'.toNat + (v - 52)
  else if v = 62 then (if url then '-' else '+').toNat
  else (if url then '_' else '/').toNat

/-- the character for a missing number: the library uses a dot in the alphabet for URLs -/
def base64Pad (url : Bool) : Nat := (if url then '.' else '=').toNat

/-- the base64 text of a string, with padding -/
def base64Text (url : Bool) (s : List Nat) : List Nat :=
  (base64Digits s).map (fun d => match d with
    | some v => base64Char url v
    | none => base64Pad url)

/-- the base64 text of a string, without padding -/
def base64Bare (url : Bool) (s : List Nat) : List Nat := ((base64Digits s).filterMap id).map (base64Char url)

/-- a character of one of the two alphabets -/
def IsBase64Digit (c : Nat) : Prop := ∃ url v, v < 64 ∧ c = base64Char url v

/-- a padding character -/
def IsBase64Pad (c : Nat) : Prop := ∃ url, c = base64Pad url

/-- a loose reading of the format: in every group of four characters, the last of which may be shorter, the first two are digits; the third
    is a digit or padding; the fourth is anything when the third is padding, and a digit or padding otherwise. The groups are independent. -/
def LooseBase64 : List Nat → Prop
  | [] => True
  | [_] => False
  | [a, b] => IsBase64Digit a ∧ IsBase64Digit b
  | [a, b, c] => IsBase64Digit a ∧ IsBase64Digit b ∧ (IsBase64Pad c ∨ IsBase64Digit c)
  | a :: b :: c :: d :: t =>
    IsBase64Digit a ∧ IsBase64Digit b ∧ (IsBase64Pad c ∨ (IsBase64Digit c ∧ (IsBase64Pad d ∨ IsBase64Digit d))) ∧ LooseBase64 t

/-! ## Files of lines, reports -/

/-- `lines` are the lines of a file: the pieces between its newlines -/
def IsLines (file : List Nat) (lines : List (List Nat)) : Prop :=
  (∀ l ∈ lines, '\n'.toNat ∉ l) ∧ file = List.intercalate ['\n'.toNat] lines

/-- characters as bytes -/
def bytesOf (s : String) : List Nat := s.toList.map Char.toNat

/-- a number in decimal digits -/
def decimalText (n : Nat) : List Nat := (Nat.toDigits 10 n).map Char.toNat

/-- the report of a locate benchmark, for patterns given by the line in the file and the string: every line of a pattern is followed by its
    occurrences in increasing order, one on each line -/
def locateReport (T : List Nat) (ps : List (List Nat × List Nat)) : List Nat :=
  ps.flatMap (fun p => p.1 ++ bytesOf "\n" ++ (occurrences p.2 T).flatMap (fun o => bytesOf "  " ++ decimalText o ++ bytesOf "\n"))

/-- the report of a count benchmark: a line of titles, and for every pattern its line in the file, the number of its occurrences and the
    bounds of its interval -/
def countReport (T : List Nat) (ps : List (List Nat × List Nat)) (intervals : List (Nat × Nat)) : List Nat :=
  bytesOf "pattern,count,range_start,range_end\n" ++
    ((ps.zip intervals).flatMap (fun x => bytesOf "\"" ++ x.1.1 ++ bytesOf "\"," ++ decimalText (occurrences x.1.2 T).length ++ bytesOf "," ++
      decimalText x.2.1 ++ bytesOf "," ++ decimalText x.2.2 ++ bytesOf "\n"))

/-- the number of occurrences of all patterns together, as a number of 64 bits -/
def totalOccurrences (T : List Nat) (ps : List (List Nat × List Nat)) : Nat := (ps.map (fun p => (occurrences p.2 T).length)).sum % 2 ^ 64

end Sri
