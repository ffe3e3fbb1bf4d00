import Verif.Model.Construct
/-! # construct_big_bwt.h: the items computed from the output files of the Big-BWT tool

The tool itself (`std::system`, construct_big_bwt.h:39-40) is not modelled: its output files are inputs. Files are lists of bytes. -/
namespace Sri
set_option autoImplicit false

/-- the characters formatted input skips: `std::isspace` of the classic locale -/
def isSpace (c : Nat) : Bool := c == 32 || (decide (9 ≤ c) && decide (c ≤ 13))

/-- `bwt_file >> symbol` with the default flag `skipws`: drop white space, take one byte; `none` sets the fail bit -/
def extractByte : List Nat → Option (Nat × List Nat)
  | [] => none
  | c :: l => if isSpace c then extractByte l else some (c, l)

/-- the loop of constructBWT (construct_big_bwt.h:48-50); each round consumes at least one byte, so the length of the file bounds the rounds -/
def readSymbols : Nat → List Nat → List Nat
  | 0, _ => []
  | f + 1, l =>
    match extractByte l with
    | none => []
    | some (c, l') => c :: readSymbols f l'

/-- constructBWT (construct_big_bwt.h:38-52): what is stored under KEY_BWT, given the file `.bwt` -/
def bigConstructBWT (file : List Nat) : List Nat := readSymbols (file.length + 1) file

/-- `input.read((char *) &j, 5)` (construct_big_bwt.h:74) on a little-endian machine: the five low bytes of a word whose other bytes are 0;
    fewer than five bytes left set the fail bit -/
def read5 : List Nat → Option (Nat × List Nat)
  | a :: b :: c :: d :: e :: l => some (a + 256 * (b + 256 * (c + 256 * (d + 256 * e))), l)
  | _ => none

/-- the loop of read_runs (construct_big_bwt.h:74-77): positions in the BWT and in the text -/
def readRunsLoop (n : Nat) : Nat → List Nat → List Nat × List Nat
  | 0, _ => ([], [])
  | f + 1, l =>
    match read5 l with
    | none => ([], [])
    | some (j, l) =>
      match read5 l with
      | none => ([], [])
      | some (p, l) =>
        let r := readRunsLoop n f l
        (j :: r.1, (if p ≠ 0 then p - 1 else n - 1) :: r.2)

def readRuns (n : Nat) (file : List Nat) : List Nat × List Nat := readRunsLoop n (file.length + 1) file

/-- constructBWTRuns (construct_big_bwt.h:54-90); `n` is the size of the file `.bwt` (line 55) -/
def bigConstructBWTRuns (bwtFile ssa esa : List Nat) : BWTRuns :=
  let f := readRuns bwtFile.length ssa
  let l := readRuns bwtFile.length esa
  { first := f.1, firstTextPos := f.2, last := l.1, lastTextPos := l.2 }

/-- constructIndexBaseItems (construct_big_bwt.h:92-123) on an empty cache: alphabet and run-length string come from KEY_BWT
    (construct_base.h:57-90) -/
def constructBaseBig (bwtFile ssa esa : List Nat) : Option BaseItems := do
  let bwt := bigConstructBWT bwtFile
  let runs := bigConstructBWTRuns bwtFile ssa esa
  let a := Alphabet.build bwt
  let rle ← RLEString.build (bwt.map a.char2comp) 2
  return { n := bwt.length, alphabet := a, bwtRle := rle, runs := runs }

end Sri
