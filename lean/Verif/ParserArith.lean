import Verif.ParserLex
import Verif.Num
/-!
# Arithmetic (parse.rs:2534-2912)
-/
namespace Conch

section
variable {I : Type} {B : Builder} [TokStream I]

/-- The recursive occurrences of the arithmetic functions, parse.rs:2536-2912: each happens after at least one token
was consumed. -/
structure ArithRec (I : Type) (B : Builder) where
  subst : P I B DefaultArithmetic
  assig : P I B DefaultArithmetic
  ternary : P I B DefaultArithmetic
  pow : P I B DefaultArithmetic
  unary : P I B DefaultArithmetic

/-- `arith_var`, parse.rs:2899-2912. -/
def arithVar : P I B Str := do
  skipWhitespace
  let _ ← eatMaybe .Dollar
  match ← peek with
  | some (.Name _) =>
    match ← next with
    | some (.Name n) => pure n
    | _ => panicAt 2907
  | _ => unexpected

/-- The numeric reading of a `Literal` token, parse.rs:2838-2858. -/
def literalValue (s : Str) : Option Int :=
  match s with
  | '0' :: 'x' :: num | '0' :: 'X' :: num =>
    if num.isEmpty then some 0 else parseSigned 16 num
  | '0' :: _ => parseSigned 8 s
  | _ => parseSigned 10 s

/-- The look-ahead for `++` and `--`, parse.rs:2874-2882. -/
def mpPostIncr (m : TokStream.MP I) : Bool × TokStream.MP I :=
  match TokStream.mpNext m with
  | (some .Plus, m) =>
    let (t, m) := TokStream.mpNext m
    (t = some .Plus, m)
  | (some .Dash, m) =>
    let (t, m) := TokStream.mpNext m
    (t = some .Dash, m)
  | (_, m) => (false, m)

/-- The variable case of `arith_post_incr`, parse.rs:2867-2891. -/
def arithVarPost : P I B DefaultArithmetic := do
  let var ← arithVar
  skipWhitespace
  if ← lookahead mpPostIncr then
    match ← peek with
    | some .Plus =>
      let _ ← next
      eat .Plus
      pure (.PostIncr var)
    | some .Dash =>
      let _ ← next
      eat .Dash
      pure (.PostDecr var)
    | _ => unexpected
  else pure (.Var var)

/-- `arith_post_incr`, parse.rs:2827-2895. -/
def arithPostIncr (R : ArithRec I B) : P I B DefaultArithmetic := do
  skipWhitespace
  match ← peek with
  | some .ParenOpen =>
    let _ ← next
    let expr ← R.subst
    skipWhitespace
    eat .ParenClose
    pure expr
  | some (.Literal s) =>
    match literalValue s with
    | some n =>
      let _ ← next
      pure (.Literal n)
    | none => arithVarPost
  | _ => arithVarPost

/-- `arith_unary_misc`, parse.rs:2787-2821. -/
def arithUnary (R : ArithRec I B) : P I B DefaultArithmetic := do
  skipWhitespace
  match ← peek with
  | some .Bang =>
    let _ ← next
    let e ← R.unary
    pure (.LogicalNot e)
  | some .Tilde =>
    let _ ← next
    let e ← R.unary
    pure (.BitwiseNot e)
  | some .Plus =>
    let _ ← next
    match ← peek with
    | some .Dash =>
      let _ ← next
      let e ← R.unary
      pure (.UnaryPlus (.UnaryMinus e))
    | some .Plus =>
      let _ ← next
      let v ← arithVar
      pure (.PreIncr v)
    | _ =>
      let e ← R.unary
      pure (.UnaryPlus e)
  | some .Dash =>
    let _ ← next
    match ← peek with
    | some .Plus =>
      let _ ← next
      let e ← R.unary
      pure (.UnaryMinus (.UnaryPlus e))
    | some .Dash =>
      let _ ← next
      let v ← arithVar
      pure (.PreDecr v)
    | _ =>
      let e ← R.unary
      pure (.UnaryMinus e)
  | _ => arithPostIncr R

/-- The look-ahead for `**`, parse.rs:2769-2772. -/
def mpDoubleStar (m : TokStream.MP I) : Bool × TokStream.MP I :=
  let (t, m) := TokStream.mpNext m
  if t = some .Star then
    let (t, m) := TokStream.mpNext m
    (t = some .Star, m)
  else (false, m)

/-- `arith_pow`, parse.rs:2760-2784. -/
def arithPow (R : ArithRec I B) : P I B DefaultArithmetic := do
  let expr ← arithUnary R
  skipWhitespace
  if ← lookahead mpDoubleStar then
    eat .Star
    eat .Star
    let e ← R.pow
    pure (.Pow expr e)
  else pure expr

/-- The loop body of `arith_parse!`, parse.rs:425-433. `op` says which tokens are operators and
what they build. -/
def arithBinBody (sub : P I B DefaultArithmetic)
    (op : Token → Option (DefaultArithmetic → DefaultArithmetic → DefaultArithmetic))
    (expr : DefaultArithmetic) : P I B (Step DefaultArithmetic DefaultArithmetic) := do
  skipWhitespace
  match ← peek with
  | some t =>
    match op t with
    | some mk =>
      let _ ← next
      let rhs ← sub
      pure (.cont (mk expr rhs))
    | none => pure (.done expr)
  | none => pure (.done expr)

/-- `arith_parse!`, parse.rs:419-437. -/
def arithBin (sub : P I B DefaultArithmetic)
    (op : Token → Option (DefaultArithmetic → DefaultArithmetic → DefaultArithmetic)) :
    P I B DefaultArithmetic := do
  let expr ← sub
  loop (arithBinBody sub op) expr

/-- parse.rs:2755-2757. -/
def multOp : Token → Option (DefaultArithmetic → DefaultArithmetic → DefaultArithmetic)
  | .Star => some .Mult
  | .Slash => some .Div
  | .Percent => some .Modulo
  | _ => none

/-- parse.rs:2747-2748. -/
def addOp : Token → Option (DefaultArithmetic → DefaultArithmetic → DefaultArithmetic)
  | .Plus => some .Add
  | .Dash => some .Sub
  | _ => none

/-- parse.rs:2739-2740. -/
def shiftOp : Token → Option (DefaultArithmetic → DefaultArithmetic → DefaultArithmetic)
  | .DLess => some .ShiftLeft
  | .DGreat => some .ShiftRight
  | _ => none

/-- parse.rs:2675. -/
def bitAndOp : Token → Option (DefaultArithmetic → DefaultArithmetic → DefaultArithmetic)
  | .Amp => some .BitwiseAnd
  | _ => none

/-- parse.rs:2668. -/
def bitXorOp : Token → Option (DefaultArithmetic → DefaultArithmetic → DefaultArithmetic)
  | .Caret => some .BitwiseXor
  | _ => none

/-- parse.rs:2661. -/
def bitOrOp : Token → Option (DefaultArithmetic → DefaultArithmetic → DefaultArithmetic)
  | .Pipe => some .BitwiseOr
  | _ => none

/-- parse.rs:2654. -/
def logAndOp : Token → Option (DefaultArithmetic → DefaultArithmetic → DefaultArithmetic)
  | .AndIf => some .LogicalAnd
  | _ => none

/-- parse.rs:2647. -/
def logOrOp : Token → Option (DefaultArithmetic → DefaultArithmetic → DefaultArithmetic)
  | .OrIf => some .LogicalOr
  | _ => none

/-- `arith_mult`, parse.rs:2750-2757. -/
def arithMult (R : ArithRec I B) : P I B DefaultArithmetic := arithBin (arithPow R) multOp

/-- `arith_add`, parse.rs:2742-2748. -/
def arithAdd (R : ArithRec I B) : P I B DefaultArithmetic := arithBin (arithMult R) addOp

/-- `arith_shift`, parse.rs:2734-2740. -/
def arithShift (R : ArithRec I B) : P I B DefaultArithmetic := arithBin (arithAdd R) shiftOp

/-- The loop body of `arith_ineq`, parse.rs:2705-2730. -/
def arithIneqBody (R : ArithRec I B) (expr : DefaultArithmetic) :
    P I B (Step DefaultArithmetic DefaultArithmetic) := do
  skipWhitespace
  match ← peek with
  | some .Less =>
    let _ ← next
    let eq ← eatMaybe .Equals
    let rhs ← arithShift R
    pure (.cont (if eq then .LessEq expr rhs else .Less expr rhs))
  | some .Great =>
    let _ ← next
    let eq ← eatMaybe .Equals
    let rhs ← arithShift R
    pure (.cont (if eq then .GreatEq expr rhs else .Great expr rhs))
  | _ => pure (.done expr)

/-- `arith_ineq`, parse.rs:2703-2732. -/
def arithIneq (R : ArithRec I B) : P I B DefaultArithmetic := do
  let expr ← arithShift R
  loop (arithIneqBody R) expr

/-- The loop body of `arith_eq`, parse.rs:2682-2697. -/
def arithEqBody (R : ArithRec I B) (expr : DefaultArithmetic) :
    P I B (Step DefaultArithmetic DefaultArithmetic) := do
  skipWhitespace
  match ← peek with
  | some .Equals =>
    let _ ← next
    eat .Equals
    let rhs ← arithIneq R
    pure (.cont (.Eq expr rhs))
  | some .Bang =>
    let _ ← next
    eat .Equals
    let rhs ← arithIneq R
    pure (.cont (.NotEq expr rhs))
  | _ => pure (.done expr)

/-- `arith_eq`, parse.rs:2680-2699. -/
def arithEq (R : ArithRec I B) : P I B DefaultArithmetic := do
  let expr ← arithIneq R
  loop (arithEqBody R) expr

/-- `arith_bitwise_and`, parse.rs:2671-2676. -/
def arithBitAnd (R : ArithRec I B) : P I B DefaultArithmetic := arithBin (arithEq R) bitAndOp

/-- `arith_bitwise_xor`, parse.rs:2664-2669. -/
def arithBitXor (R : ArithRec I B) : P I B DefaultArithmetic := arithBin (arithBitAnd R) bitXorOp

/-- `arith_bitwise_or`, parse.rs:2657-2662. -/
def arithBitOr (R : ArithRec I B) : P I B DefaultArithmetic := arithBin (arithBitXor R) bitOrOp

/-- `arith_logical_and`, parse.rs:2650-2655. -/
def arithLogAnd (R : ArithRec I B) : P I B DefaultArithmetic := arithBin (arithBitOr R) logAndOp

/-- `arith_logical_or`, parse.rs:2643-2648. -/
def arithLogOr (R : ArithRec I B) : P I B DefaultArithmetic := arithBin (arithLogAnd R) logOrOp

/-- `arith_ternary`, parse.rs:2628-2641. -/
def arithTernary (R : ArithRec I B) : P I B DefaultArithmetic := do
  let guard ← arithLogOr R
  skipWhitespace
  if ← eatMaybe .Question then
    let body ← R.ternary
    skipWhitespace
    eat .Colon
    let els ← R.ternary
    pure (.Ternary guard body els)
  else pure guard

/-- The operators of `op=`, parse.rs:2572-2574 and 2599-2602. -/
def Token.isAssigOp : Token → Bool
  | .Star | .Slash | .Percent | .Plus | .Dash | .DLess | .DGreat | .Amp | .Pipe | .Caret => true
  | _ => false

/-- The inner loop of the look-ahead of `arith_assig`, parse.rs:2569-2583: after the name. -/
def mpAssigOp : Nat → TokStream.MP I → Bool × TokStream.MP I
  | 0, m => (false, m)
  | n + 1, m =>
    match TokStream.mpNext m with
    | (some t, m) =>
      if t.isWs then mpAssigOp n m
      else if t.isAssigOp then
        let (t, m) := TokStream.mpNext m
        (t = some .Equals, m)
      else if t = .Equals then
        let (t, m) := TokStream.mpNext m
        (t ≠ some .Equals, m)
      else (false, m)
    | (none, m) => (false, m)

/-- The look-ahead of `arith_assig`, parse.rs:2562-2590. -/
def mpAssig : Nat → TokStream.MP I → Bool × TokStream.MP I
  | 0, m => (false, m)
  | n + 1, m =>
    match TokStream.mpNext m with
    | (some .Dollar, m) => mpAssig n m
    | (some (.Name _), m) => mpAssigOp n m
    | (_, m) => (false, m)

/-- What `var op= value` means, parse.rs:2610-2624. -/
def assigValue (var : Str) (value : DefaultArithmetic) : Token → Option DefaultArithmetic
  | .Star => some (.Mult (.Var var) value)
  | .Slash => some (.Div (.Var var) value)
  | .Percent => some (.Modulo (.Var var) value)
  | .Plus => some (.Add (.Var var) value)
  | .Dash => some (.Sub (.Var var) value)
  | .DLess => some (.ShiftLeft (.Var var) value)
  | .DGreat => some (.ShiftRight (.Var var) value)
  | .Amp => some (.BitwiseAnd (.Var var) value)
  | .Pipe => some (.BitwiseOr (.Var var) value)
  | .Caret => some (.BitwiseXor (.Var var) value)
  | .Equals => some value
  | _ => none

/-- `arith_assig`, parse.rs:2557-2625. The look-ahead's budget is the number of tokens left plus
two (it reads each token at most once). -/
def arithAssig (R : ArithRec I B) : P I B DefaultArithmetic := do
  skipWhitespace
  let assig ← fun s => lookahead (mpAssig (TokStream.len s.it + 2)) s
  if assig then
    let var ← arithVar
    skipWhitespace
    match ← next with
    | some op =>
      if op.isAssigOp then
        eat .Equals
        let value ← R.assig
        match assigValue var value op with
        | some e => pure (.Assign var e)
        | none => panicAt 2622
      else if op = .Equals then
        let value ← R.assig
        pure (.Assign var value)
      else panicAt 2606
    | none => panicAt 2606
  else arithTernary R

/-- The loop body of `arithmetic_substitution`, parse.rs:2538-2546. -/
def arithSubstBody (R : ArithRec I B) (exprs : List DefaultArithmetic) :
    P I B (Step (List DefaultArithmetic) (List DefaultArithmetic)) := do
  skipWhitespace
  let e ← arithAssig R
  if ← eatMaybe .Comma then pure (.cont (exprs ++ [e])) else pure (.done (exprs ++ [e]))

/-- `arithmetic_substitution`, parse.rs:2536-2553. -/
def arithSubst (R : ArithRec I B) : P I B DefaultArithmetic := do
  match ← loop (arithSubstBody R) [] with
  | [e] => pure e
  | es => pure (.Sequence es)

/-- The arithmetic functions, parse.rs:2536-2912, with recursion depth at most `n`. -/
def ArithRec.fix : Nat → ArithRec I B
  | 0 => { subst := outOfFuel, assig := outOfFuel, ternary := outOfFuel, pow := outOfFuel,
           unary := outOfFuel }
  | n + 1 =>
    let R := ArithRec.fix n
    { subst := arithSubst R, assig := arithAssig R, ternary := arithTernary R, pow := arithPow R,
      unary := arithUnary R }

/-- `arithmetic_substitution`, parse.rs:2536-2553, with enough recursion depth. -/
def arithmeticSubstitution : P I B DefaultArithmetic := fun s =>
  arithSubst (ArithRec.fix (TokStream.len s.it + 1)) s

end
end Conch
