import Verif.Token
/-!
# Number parsing of the Rust standard library, as used by the parser
-/
namespace Conch

/-- `char::is_digit(10)`. -/
def isDec (c : Char) : Bool := '0' ≤ c && c ≤ '9'

/-- `char::to_digit(radix)` for `radix ≤ 16`. -/
def toDigit (radix : Nat) (c : Char) : Option Nat :=
  let v :=
    if '0' ≤ c && c ≤ '9' then some (c.toNat - '0'.toNat)
    else if 'a' ≤ c && c ≤ 'f' then some (c.toNat - 'a'.toNat + 10)
    else if 'A' ≤ c && c ≤ 'F' then some (c.toNat - 'A'.toNat + 10)
    else none
  match v with
  | some n => if n < radix then some n else none
  | none => none

/-- The digits of `s` accumulated onto `acc`; `none` if some character is not a digit. -/
def digitsValue (radix : Nat) : Nat → Str → Option Nat
  | acc, [] => some acc
  | acc, c :: cs =>
    match toDigit radix c with
    | some d => digitsValue radix (acc * radix + d) cs
    | none => none

/-- A non-empty string of digits. (The standard library checks for overflow at every digit; as the
accumulated value never decreases this is the same as checking the final value.) -/
def magnitude (radix : Nat) (s : Str) : Option Nat :=
  if s.isEmpty then none else digitsValue radix 0 s

/-- `uN::from_str_radix(s, radix).ok()`: an optional leading `+`, then digits, at most `max`. -/
def parseUnsigned (radix max : Nat) (s : Str) : Option Nat :=
  let body := match s with
    | '+' :: rest => rest
    | _ => s
  match magnitude radix body with
  | some n => if n ≤ max then some n else none
  | none => none

/-- `isize::from_str_radix(s, radix).ok()` with a 64-bit `isize`. -/
def parseSigned (radix : Nat) (s : Str) : Option Int :=
  match s with
  | '-' :: rest =>
    match magnitude radix rest with
    | some n => if n ≤ 2 ^ 63 then some (-(n : Int)) else none
    | none => none
  | _ =>
    match parseUnsigned radix (2 ^ 63 - 1) s with
    | some n => some (n : Int)
    | none => none

end Conch
