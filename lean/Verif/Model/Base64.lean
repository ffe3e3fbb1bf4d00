/-! # benchmark/base64.h

Strings are lists of the values of their bytes. `none` stands for an exception (std::runtime_error of pos_of_char, std::out_of_range of
`at`), for an access out of bounds, and, for functions with fuel, for a loop that has not ended when the fuel is spent. -/
namespace Sri
set_option autoImplicit false

/-- the number of values of `unsigned int` -/
def W32 : Nat := 2^32

namespace Base64

/-- base64_chars (base64.h:71-80) -/
def chars (url : Bool) : List Nat :=
  ("ABCDEFGHIJKLMNOPQRSTUVWXYZabcdefghijklmnopqrstuvwxyz0123456789" ++ (if url then "-_" else "+/")).toList.map Char.toNat

/-- pos_of_char (base64.h:82-99); `none`: throws -/
def posOfChar (chr : Nat) : Option Nat :=
  if 'A'.toNat ≤ chr ∧ chr ≤ 'Z'.toNat then some (chr - 'A'.toNat)
  else if 'a'.toNat ≤ chr ∧ chr ≤ 'z'.toNat then some (chr - 'a'.toNat + ('Z'.toNat - 'A'.toNat) + 1)
  else if '0'.toNat ≤ chr ∧ chr ≤ '9'.toNat then some (chr - '0'.toNat + ('Z'.toNat - 'A'.toNat) + ('z'.toNat - 'a'.toNat) + 2)
  else if chr = '+'.toNat ∨ chr = '-'.toNat then some 62
  else if chr = '/'.toNat ∨ chr = '_'.toNat then some 63
  else none

/-- the loop of insert_linebreaks (base64.h:111-114) -/
def breakLoop (distance : Nat) : Nat → Nat → List Nat → Option (List Nat)
  | 0, _, _ => none
  | fuel + 1, pos, str =>
    if pos < str.length then breakLoop distance fuel (pos + (distance + 1)) (str.take pos ++ '\n'.toNat :: str.drop pos)
    else some str

/-- insert_linebreaks (base64.h:101-117) -/
def insertLinebreaks (fuel : Nat) (str : List Nat) (distance : Nat) : Option (List Nat) :=
  if str.length = 0 then some [] else breakLoop distance fuel distance str

/-- the loop of base64_encode (base64.h:161-183). `pos` is an unsigned int: its sums are taken modulo 2^32. -/
def encodeLoop (chars : List Nat) (trailing : Nat) (bytes : List Nat) : Nat → Nat → List Nat → Option (List Nat)
  | 0, _, _ => none
  | fuel + 1, pos, ret =>
    if pos < bytes.length then do
      let b0 ← bytes[(pos + 0) % W32]?
      let c0 ← chars[(b0 &&& 0xfc) >>> 2]?
      let ret := ret ++ [c0]
      let ret ← (if (pos + 1) % W32 < bytes.length then do
          let b0 ← bytes[(pos + 0) % W32]?
          let b1 ← bytes[(pos + 1) % W32]?
          let c1 ← chars[((b0 &&& 0x03) <<< 4) + ((b1 &&& 0xf0) >>> 4)]?
          let ret := ret ++ [c1]
          if (pos + 2) % W32 < bytes.length then do
            let b1 ← bytes[(pos + 1) % W32]?
            let b2 ← bytes[(pos + 2) % W32]?
            let c2 ← chars[((b1 &&& 0x0f) <<< 2) + ((b2 &&& 0xc0) >>> 6)]?
            let b2 ← bytes[(pos + 2) % W32]?
            let c3 ← chars[b2 &&& 0x3f]?
            return ret ++ [c2] ++ [c3]
          else do
            let b1 ← bytes[(pos + 1) % W32]?
            let c2 ← chars[(b1 &&& 0x0f) <<< 2]?
            return ret ++ [c2] ++ [trailing]
        else do
          let b0 ← bytes[(pos + 0) % W32]?
          let c1 ← chars[(b0 &&& 0x03) <<< 4]?
          return ret ++ [c1] ++ [trailing] ++ [trailing])
      encodeLoop chars trailing bytes fuel ((pos + 3) % W32) ret
    else some ret

/-- base64_encode (base64.h:139-186, 134-137, 275-277, 294-296); the capacity that is reserved has no effect -/
def encode (fuel : Nat) (s : List Nat) (url : Bool) : Option (List Nat) :=
  encodeLoop (chars url) (if url then '.'.toNat else '='.toNat) s fuel 0 []

/-- encode_with_line_breaks, base64_encode_pem and base64_encode_mime (base64.h:119-132, 279-285, 298-304): `lineLength` is 64 or 76 -/
def encodeLines (fuel : Nat) (lineLength : Nat) (s : List Nat) : Option (List Nat) := do
  let e ← encode fuel s false
  insertLinebreaks fuel e lineLength

/-- the loop of decode (base64.h:219-266). `at` throws behind the end; the sums of `push_back` are converted to char. -/
def decodeLoop (s : List Nat) : Nat → Nat → List Nat → Option (List Nat)
  | 0, _, _ => none
  | fuel + 1, pos, ret =>
    if pos < s.length then do
      let p1 ← s[pos + 1]?.bind posOfChar
      let p0 ← s[pos + 0]?.bind posOfChar
      let ret := ret ++ [((p0 <<< 2) + ((p1 &&& 0x30) >>> 4)) % 256]
      let ret ← (if pos + 2 < s.length ∧ s[pos + 2]? ≠ some '='.toNat ∧ s[pos + 2]? ≠ some '.'.toNat then do
          let p2 ← s[pos + 2]?.bind posOfChar
          let ret := ret ++ [(((p1 &&& 0x0f) <<< 4) + ((p2 &&& 0x3c) >>> 2)) % 256]
          if pos + 3 < s.length ∧ s[pos + 3]? ≠ some '='.toNat ∧ s[pos + 3]? ≠ some '.'.toNat then do
            let p3 ← s[pos + 3]?.bind posOfChar
            return ret ++ [(((p2 &&& 0x03) <<< 6) + p3) % 256]
          else return ret
        else return ret)
      decodeLoop s fuel (pos + 4) ret
    else some ret

/-- decode and base64_decode (base64.h:188-273, 306-308). The loop ends after at most as many rounds as there are characters. -/
def decode (s : List Nat) (removeLinebreaks : Bool) : Option (List Nat) :=
  if s.length = 0 then some []
  else
    let s := if removeLinebreaks then s.filter (fun c => c != '\n'.toNat) else s
    decodeLoop s (s.length + 1) 0 []

end Base64
end Sri
