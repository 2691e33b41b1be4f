import Verif.Model.Base

/-
Text processing of the standard library used by the parsers. Text is a list of characters (input that is not UTF-8 is an I/O error and
not modelled).
-/

namespace Rml
namespace Text

/-- Text. -/
abbrev Str := List Char

/-- `char::is_whitespace` (standard library): the Unicode property `White_Space`. -/
def isWs (c : Char) : Bool :=
  let n := c.toNat
  decide (9 ≤ n ∧ n ≤ 13) || decide (n = 32) || decide (n = 133) || decide (n = 160) || decide (n = 5760) ||
    decide (8192 ≤ n ∧ n ≤ 8202) || decide (n = 8232) || decide (n = 8233) || decide (n = 8239) || decide (n = 8287) || decide (n = 12288)

/-- `u8::is_ascii_whitespace` (standard library), used by `split_ascii_whitespace`: no vertical tab. -/
def isAsciiWs (c : Char) : Bool := c = ' ' || c = '\t' || c = '\n' || c = '\x0c' || c = '\r'

/-- `str::trim_end` (standard library). -/
def trimEnd (s : Str) : Str := (s.reverse.dropWhile isWs).reverse

/-- `str::trim` (standard library). -/
def trim (s : Str) : Str := trimEnd (s.dropWhile isWs)

/-- `str::split(c)` collected (standard library). -/
def split (c : Char) : Str → List Str
  | [] => [[]]
  | x :: s => if x = c then [] :: split c s else (split c s).modifyHead (x :: ·)

/-- Maximal runs of characters that do not satisfy `p`: the reading position and the run so far. -/
def runs (p : Char → Bool) : Str → Str → List Str
  | acc, [] => if acc.isEmpty then [] else [acc]
  | acc, x :: s => if p x then (if acc.isEmpty then runs p [] s else acc :: runs p [] s) else runs p (acc ++ [x]) s

/-- `str::split_ascii_whitespace` collected (standard library). -/
def splitAsciiWhitespace (s : Str) : List Str := runs isAsciiWs [] s

/-- `str::split_whitespace` collected (standard library). -/
def splitWhitespace (s : Str) : List Str := runs isWs [] s

/-- `BufRead::read_line` (standard library): the next line with its newline, and the rest of the input. -/
def readLine : Str → Str × Str
  | [] => ([], [])
  | x :: s => if x = '\n' then (['\n'], s) else let (l, r) := readLine s; (x :: l, r)

/-- A final `\r` of a line is not part of the line. -/
def dropCr (s : Str) : Str := if s.getLast? = some '\r' then s.dropLast else s

/-- `str::lines` collected (standard library): split after each `\n`, each piece without `\n` or `\r\n`; no piece for the empty rest after a
final newline. -/
def lines : Str → Str → List Str
  | [], [] => []
  | acc, [] => [acc]
  | acc, x :: s => if x = '\n' then dropCr acc :: lines [] s else lines (acc ++ [x]) s

/-- `str::starts_with(c)` (standard library). -/
def startsWith (c : Char) (s : Str) : Bool := s.head? = some c

/-- `str::ends_with(c)` (standard library). -/
def endsWith (c : Char) (s : Str) : Bool := s.getLast? = some c

/-- `str::parse::<u32>` (standard library): an optional `+`, then decimal digits, at most 2^32 - 1. -/
def parseU32 (s : Str) : Option Nat :=
  let d := if startsWith '+' s then s.tail else s
  if d.isEmpty then none
  else
    let r := d.foldl (fun acc c => do
      let a ← acc
      if 48 ≤ c.toNat ∧ c.toNat ≤ 57 then some (10 * a + (c.toNat - 48)) else none) (some 0)
    match r with
    | some n => if n < 2 ^ 32 then some n else none
    | none => none

end Text
end Rml
