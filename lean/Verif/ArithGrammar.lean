import Verif.BlankSpec
import Verif.Ast
import Verif.Num
/-!
# The grammar of arithmetic expressions (C22)

A stratified grammar, from the loosest level (`,`) to the tightest (parentheses, literals,
variables). The operators, their levels and what they build are tables. Blanks may stand before
every operand and operator.
-/
namespace Conch.Spec
open Conch

/-- The levels of precedence, loosest first. -/
inductive Level
  | seq | assign | ternary | or | and | bitOr | bitXor | bitAnd | eq | rel | shift | add | mult
  | pow | unary | primary
  deriving DecidableEq, Repr

/-- The next tighter level. -/
def Level.tighter : Level → Level
  | .seq => .assign
  | .assign => .ternary
  | .ternary => .or
  | .or => .and
  | .and => .bitOr
  | .bitOr => .bitXor
  | .bitXor => .bitAnd
  | .bitAnd => .eq
  | .eq => .rel
  | .rel => .shift
  | .shift => .add
  | .add => .mult
  | .mult => .pow
  | .pow => .unary
  | .unary => .primary
  | .primary => .primary

/-- What an operator builds. -/
abbrev BinMk := DefaultArithmetic → DefaultArithmetic → DefaultArithmetic

/-- The left-associative binary operators of each level. -/
def binOps : Level → List (List Token × BinMk)
  | .or => [([.OrIf], .LogicalOr)]
  | .and => [([.AndIf], .LogicalAnd)]
  | .bitOr => [([.Pipe], .BitwiseOr)]
  | .bitXor => [([.Caret], .BitwiseXor)]
  | .bitAnd => [([.Amp], .BitwiseAnd)]
  | .eq => [([.Equals, .Equals], .Eq), ([.Bang, .Equals], .NotEq)]
  | .rel => [([.Less], .Less), ([.Less, .Equals], .LessEq), ([.Great], .Great),
      ([.Great, .Equals], .GreatEq)]
  | .shift => [([.DLess], .ShiftLeft), ([.DGreat], .ShiftRight)]
  | .add => [([.Plus], .Add), ([.Dash], .Sub)]
  | .mult => [([.Star], .Mult), ([.Slash], .Div), ([.Percent], .Modulo)]
  | _ => []

/-- The operators of `x op= e`, which means `x = x op e`. -/
def compoundOps : List (Token × BinMk) :=
  [(.Star, .Mult), (.Slash, .Div), (.Percent, .Modulo), (.Plus, .Add), (.Dash, .Sub),
   (.DLess, .ShiftLeft), (.DGreat, .ShiftRight), (.Amp, .BitwiseAnd), (.Pipe, .BitwiseOr),
   (.Caret, .BitwiseXor)]

/-- A variable: `x` or `$x`. -/
inductive VarRef : List PTok → Str → Prop
  | name {p x} : VarRef [(p, .Name x)] x
  | dollar {p q x} : VarRef [(p, .Dollar), (q, .Name x)] x

/-- The digits and their values. -/
def digitTable : List (Char × Nat) :=
  [('0', 0), ('1', 1), ('2', 2), ('3', 3), ('4', 4), ('5', 5), ('6', 6), ('7', 7), ('8', 8),
   ('9', 9), ('a', 10), ('b', 11), ('c', 12), ('d', 13), ('e', 14), ('f', 15), ('A', 10),
   ('B', 11), ('C', 12), ('D', 13), ('E', 14), ('F', 15)]

/-- `Digits base s ds`: the characters of `s` are the digits `ds` of the base. -/
def Digits (base : Nat) (s : Str) (ds : List Nat) : Prop :=
  s.length = ds.length ∧ ∀ p ∈ s.zip ds, p ∈ digitTable ∧ p.2 < base

/-- The number with the given digits, most significant first. -/
def number (base : Nat) (ds : List Nat) : Nat := ds.foldl (fun n d => n * base + d) 0

/-- `Signed base s n`: `s` is a non-empty string of digits, possibly after a sign, that denotes
`n`. (A token of `Lexer` never contains a sign.) -/
inductive Signed (base : Nat) : Str → Int → Prop
  | plain {s ds} : s ≠ [] → Digits base s ds → Signed base s (number base ds)
  | plus {s ds} : s ≠ [] → Digits base s ds → Signed base ('+' :: s) (number base ds)
  | minus {s ds} : s ≠ [] → Digits base s ds → Signed base ('-' :: s) (-(number base ds : Int))

/-- `Numeral s n`: the literal `s` denotes the number `n` (C23). -/
inductive Numeral : Str → Int → Prop
  | zero {x} : x = 'x' ∨ x = 'X' → Numeral ['0', x] 0
  | hex {x s n} : x = 'x' ∨ x = 'X' → Signed 16 s n → Numeral ('0' :: x :: s) n
  | oct {s n} : (∀ x r, s = '0' :: x :: r → x ≠ 'x' ∧ x ≠ 'X') → s.head? = some '0' →
      Signed 8 s n → Numeral s n
  | dec {s n} : s.head? ≠ some '0' → Signed 10 s n → Numeral s n

/-- The numbers a literal may have: those of `isize`. -/
def InRange (n : Int) : Prop := -2 ^ 63 ≤ n ∧ n < 2 ^ 63

/-- The tokens do not start with a sign. -/
def NoSign (l : List PTok) : Prop := ∀ p r, l ≠ (p, .Plus) :: r ∧ l ≠ (p, .Dash) :: r

/-- The rightmost leaf of the tree is a variable. -/
def lastVar : DefaultArithmetic → Prop
  | .Var _ => True
  | .UnaryPlus a | .UnaryMinus a | .LogicalNot a | .BitwiseNot a | .Assign _ a => lastVar a
  | .Pow _ b | .Mult _ b | .Div _ b | .Modulo _ b | .Add _ b | .Sub _ b | .ShiftLeft _ b
  | .ShiftRight _ b | .Less _ b | .LessEq _ b | .Great _ b | .GreatEq _ b | .Eq _ b | .NotEq _ b
  | .BitwiseAnd _ b | .BitwiseXor _ b | .BitwiseOr _ b | .LogicalAnd _ b | .LogicalOr _ b
  | .Ternary _ _ b => lastVar b
  | .Literal _ | .PostIncr _ | .PostDecr _ | .PreIncr _ | .PreDecr _ | .Sequence _ => False

/-- The expression with the tokens `u` and the tree `a` ends in a variable: one that is in no
parentheses and neither incremented nor decremented. -/
def EndsVar (u : List PTok) (a : DefaultArithmetic) : Prop :=
  (∃ u' p x, u = u' ++ [(p, .Name x)]) ∧ lastVar a

/-- What an operand that follows a sign directly must look like: `un v` is required of the operand
`v` of a unary sign, `bin u a op v` of the right operand `v` of the sign `op` after the left
operand with the tokens `u` and the tree `a`. -/
structure Signs where
  un : List PTok → Prop
  bin : List PTok → DefaultArithmetic → List PTok → List PTok → Prop

/-- No requirement: the plain grammar, which has two readings of, for instance, `--x`. -/
def Signs.any : Signs := ⟨fun _ => True, fun _ _ _ _ => True⟩

/-- Longest match, which leaves one reading: what follows a unary sign does not start with a sign
(`--x` decrements; the rules `plusMinus` and `minusPlus` are for `+-x` and `-+x`), and what follows
a sign after a variable does not start with the same sign (`x++` increments). -/
def Signs.munch : Signs :=
  ⟨NoSign, fun u a op v => EndsVar u a → ∀ x ∈ op, ∀ p r, v ≠ (p, x.2) :: r⟩

mutual
/-- `Expr sep lvl u a`: the tokens `u` are an expression of the level `lvl` whose tree is `a`. `sep`:
what is required of operands after signs. -/
inductive Expr (sep : Signs) :
    Level → List PTok → DefaultArithmetic → Prop
  /-- Every expression of a tighter level. -/
  | tighter {lvl u a} : lvl ≠ .primary → Expr sep lvl.tighter u a → Expr sep lvl u a
  /-- `a , b , ...`: at least two items. -/
  | seq {u as} : Items sep u as → 2 ≤ as.length → Expr sep .seq u (.Sequence as)
  /-- `x = a` (right associative); whitespace is allowed after the variable. -/
  | assign {bs vs x ws p u a} : Blanks bs → VarRef vs x → (∀ t ∈ ws, ∃ w, t.2 = .Whitespace w) →
      Expr sep .assign u a →
      Expr sep .assign (bs ++ vs ++ ws ++ (p, .Equals) :: u) (.Assign x a)
  /-- `x op= a`. -/
  | compound {bs vs x ws p q op mk u a} : Blanks bs → VarRef vs x →
      (∀ t ∈ ws, ∃ w, t.2 = .Whitespace w) → (op, mk) ∈ compoundOps → Expr sep .assign u a →
      Expr sep .assign (bs ++ vs ++ ws ++ (p, op) :: (q, .Equals) :: u)
        (.Assign x (mk (.Var x) a))
  /-- `a ? b : c` (right associative). -/
  | ternary {u a bs p v b bs' q w c} : Expr sep .or u a → Blanks bs → Expr sep .ternary v b →
      Blanks bs' → Expr sep .ternary w c →
      Expr sep .ternary (u ++ bs ++ (p, .Question) :: v ++ bs' ++ (q, .Colon) :: w)
        (.Ternary a b c)
  /-- `a op b` (left associative). -/
  | bin {lvl u a bs op mk v b} : (op.map (·.2), mk) ∈ binOps lvl → Expr sep lvl u a → Blanks bs →
      Expr sep lvl.tighter v b → (lvl = .add → sep.bin u a op v) →
      Expr sep lvl (u ++ bs ++ op ++ v) (mk a b)
  /-- `a ** b` (right associative). -/
  | pow {u a bs p q v b} : Expr sep .unary u a → Blanks bs → Expr sep .pow v b →
      Expr sep .pow (u ++ bs ++ (p, .Star) :: (q, .Star) :: v) (.Pow a b)
  | not {bs p u a} : Blanks bs → Expr sep .unary u a →
      Expr sep .unary (bs ++ (p, .Bang) :: u) (.LogicalNot a)
  | bitNot {bs p u a} : Blanks bs → Expr sep .unary u a →
      Expr sep .unary (bs ++ (p, .Tilde) :: u) (.BitwiseNot a)
  | plus {bs p u a} : Blanks bs → Expr sep .unary u a → sep.un u →
      Expr sep .unary (bs ++ (p, .Plus) :: u) (.UnaryPlus a)
  | minus {bs p u a} : Blanks bs → Expr sep .unary u a → sep.un u →
      Expr sep .unary (bs ++ (p, .Dash) :: u) (.UnaryMinus a)
  /-- `+- a` -/
  | plusMinus {bs p q u a} : Blanks bs → Expr sep .unary u a →
      Expr sep .unary (bs ++ (p, .Plus) :: (q, .Dash) :: u) (.UnaryPlus (.UnaryMinus a))
  /-- `-+ a` -/
  | minusPlus {bs p q u a} : Blanks bs → Expr sep .unary u a →
      Expr sep .unary (bs ++ (p, .Dash) :: (q, .Plus) :: u) (.UnaryMinus (.UnaryPlus a))
  /-- `++ x` -/
  | preIncr {bs p q bs' vs x} : Blanks bs → Blanks bs' → VarRef vs x →
      Expr sep .unary (bs ++ (p, .Plus) :: (q, .Plus) :: bs' ++ vs) (.PreIncr x)
  /-- `-- x` -/
  | preDecr {bs p q bs' vs x} : Blanks bs → Blanks bs' → VarRef vs x →
      Expr sep .unary (bs ++ (p, .Dash) :: (q, .Dash) :: bs' ++ vs) (.PreDecr x)
  /-- `x ++` -/
  | postIncr {bs p q bs' vs x} : Blanks bs → VarRef vs x → Blanks bs' →
      Expr sep .primary (bs ++ vs ++ bs' ++ [(p, .Plus), (q, .Plus)]) (.PostIncr x)
  /-- `x --` -/
  | postDecr {bs p q bs' vs x} : Blanks bs → VarRef vs x → Blanks bs' →
      Expr sep .primary (bs ++ vs ++ bs' ++ [(p, .Dash), (q, .Dash)]) (.PostDecr x)
  | var {bs vs x} : Blanks bs → VarRef vs x → Expr sep .primary (bs ++ vs) (.Var x)
  | literal {bs p s n} : Blanks bs → Numeral s n → InRange n →
      Expr sep .primary (bs ++ [(p, .Literal s)]) (.Literal n)
  | paren {bs p u a bs' q} : Blanks bs → Expr sep .seq u a → Blanks bs' →
      Expr sep .primary (bs ++ (p, .ParenOpen) :: u ++ bs' ++ [(q, .ParenClose)]) a
/-- `Items sep u as`: expressions separated by commas. -/
inductive Items (sep : Signs) : List PTok → List DefaultArithmetic → Prop
  | one {u a} : Expr sep .assign u a → Items sep u [a]
  | cons {u a bs p v as} : Expr sep .assign u a → Blanks bs → Items sep v as →
      Items sep (u ++ bs ++ (p, .Comma) :: v) (a :: as)
end

/-- The tokens an operator starts with: what may not follow a complete expression. -/
def operatorTokens : List Token :=
  [.Comma, .Question, .OrIf, .AndIf, .Pipe, .Caret, .Amp, .Equals, .Bang, .Less, .Great, .DLess,
   .DGreat, .Plus, .Dash, .Star, .Slash, .Percent]

/-- The trees that can be written: the literals are in range, a sequence has at least two items. -/
inductive Writable : DefaultArithmetic → Prop
  | var {x} : Writable (.Var x)
  | literal {n} : InRange n → Writable (.Literal n)
  | postIncr {x} : Writable (.PostIncr x)
  | postDecr {x} : Writable (.PostDecr x)
  | preIncr {x} : Writable (.PreIncr x)
  | preDecr {x} : Writable (.PreDecr x)
  | un {mk : DefaultArithmetic → DefaultArithmetic} {a} :
      mk ∈ [.UnaryPlus, .UnaryMinus, .LogicalNot, .BitwiseNot] → Writable a →
      Writable (mk a)
  | bin {lvl op mk a b} : (op, mk) ∈ binOps lvl → Writable a → Writable b → Writable (mk a b)
  | pow {a b} : Writable a → Writable b → Writable (.Pow a b)
  | ternary {a b c} : Writable a → Writable b → Writable c → Writable (.Ternary a b c)
  | assign {x a} : Writable a → Writable (.Assign x a)
  | seq {as} : 2 ≤ as.length → (∀ a ∈ as, Writable a) → Writable (.Sequence as)

end Conch.Spec
