import Verif.TextSpec
import Verif.PropsCompress
import Verif.PropsDefault
import Verif.Grammar
/-!
# The text of the words a builder is given, and that the default builder keeps it (C54)
-/
namespace Conch
open Spec Gram

abbrev GKind := ComplexWordKind (TopLevelCommand Str)

mutual
/-- The text of a word given to a builder. -/
def gkText : ComplexWordKind (TopLevelCommand Str) → Str
  | .Concat ws => gkParts ws
  | .Single w => gkPart w
def gkParts : List (WordKind (TopLevelCommand Str)) → Str
  | [] => []
  | w :: ws => gkPart w ++ gkParts ws
def gkPart : WordKind (TopLevelCommand Str) → Str
  | .Simple s => gkSimple s
  | .DoubleQuoted ss => gkSimples ss
  | .SingleQuoted s => s
def gkSimples : List (SimpleWordKind (TopLevelCommand Str)) → Str
  | [] => []
  | w :: ws => gkSimple w ++ gkSimples ws
def gkSimple : SimpleWordKind (TopLevelCommand Str) → Str
  | .Literal s => s
  | .Escaped s => s
  | .Param p => Txt.paramText p
  | .Subst s => gkSubst s
  | .CommandSubst g => Txt.commandsText g.commands
  | .Star => ['*']
  | .Question => ['?']
  | .SquareOpen => ['[']
  | .SquareClose => [']']
  | .Tilde => ['~']
  | .Colon => [':']
def gkSubst : ParameterSubstitutionKind (ComplexWordKind (TopLevelCommand Str)) (TopLevelCommand Str) → Str
  | .Command g => Txt.commandsText g.commands
  | .Len p => Txt.paramText p
  | .Arith a => Txt.optArithText a
  | .Default _ x y | .Assign _ x y | .Error _ x y | .Alternative _ x y
  | .RemoveSmallestSuffix x y | .RemoveLargestSuffix x y
  | .RemoveSmallestPrefix x y | .RemoveLargestPrefix x y => Txt.paramText x ++ gkOpt y
def gkOpt : Option (ComplexWordKind (TopLevelCommand Str)) → Str
  | none => []
  | some w => gkText w
end

theorem gkParts_eq (ws) : gkParts ws = ws.flatMap gkPart := by
  induction ws with
  | nil => rfl
  | cons w ws ih => simp [gkParts, ih]

theorem gkSimples_eq (ws) : gkSimples ws = ws.flatMap gkSimple := by
  induction ws with
  | nil => rfl
  | cons w ws ih => simp [gkSimples, ih]

theorem gkText_eq (k : GKind) : gkText k = (parts k).flatMap gkPart := by
  cases k <;> simp [gkText, gkParts_eq, parts]

theorem gkSimples_joined {v v' : List (SimpleWordKind (TopLevelCommand Str))} (h : Joined JoinSimple v v') :
    gkSimples v' = gkSimples v := by
  rw [gkSimples_eq, gkSimples_eq]
  refine joined_atoms ?_ h
  rintro _ _ _ ⟨a, b⟩
  simp [gkSimple]

/-- Joining neighbours keeps the text. -/
theorem gkText_compress (k : GKind) : gkText (compress k) = gkText k := by
  rcases C32_only_joins_neighbours k with h | ⟨v, v', h1, h2, h⟩
  · rw [gkText_eq, gkText_eq]
    refine joined_atoms ?_ h
    intro a b c hj
    cases hj with
    | literal a b => simp [gkPart, gkSimple]
    | singleQuoted a b => simp [gkPart]
    | doubleQuoted hj => simp only [gkPart, gkSimples_joined hj]; simp [gkSimples_eq]
  · rw [h2, h1]; simp only [gkText, gkPart, gkSimples_joined h]

mutual
theorem mapArith_text : ∀ a : DefaultArithmetic, Txt.arithText (mapArith id a) = Txt.arithText a
  | .Var _ | .Literal _ | .PostIncr _ | .PostDecr _ | .PreIncr _ | .PreDecr _ => rfl
  | .UnaryPlus a | .UnaryMinus a | .LogicalNot a | .BitwiseNot a | .Assign _ a => by
    simp only [mapArith, Txt.arithText, mapArith_text a]
  | .Pow a b | .Mult a b | .Div a b | .Modulo a b | .Add a b | .Sub a b | .ShiftLeft a b
  | .ShiftRight a b | .Less a b | .LessEq a b | .Great a b | .GreatEq a b | .Eq a b | .NotEq a b
  | .BitwiseAnd a b | .BitwiseXor a b | .BitwiseOr a b | .LogicalAnd a b | .LogicalOr a b => by
    simp only [mapArith, Txt.arithText, mapArith_text a, mapArith_text b]
  | .Ternary a b c => by
    simp only [mapArith, Txt.arithText, mapArith_text a, mapArith_text b, mapArith_text c]
  | .Sequence as => by simp only [mapArith, Txt.arithText, mapAriths_text as]
theorem mapAriths_text : ∀ as : List DefaultArithmetic,
    Txt.arithsText (mapAriths id as) = Txt.arithsText as
  | [] => rfl
  | a :: as => by simp only [mapAriths, Txt.arithsText, mapArith_text a, mapAriths_text as]
end

theorem mapParam_text (p : DefaultParameter) : Txt.paramText (mapParam id p) = Txt.paramText p := by
  cases p <;> rfl

section
variable {n : Nat} {rec : (k : GKind) → k.depth ≤ n → TopLevelWord Str}

theorem mapOpt_text (h : ∀ k hk, Txt.wordText (rec k hk) = gkText k) (w hw) :
    Txt.optWordText (stringCore.mapOpt rec w hw) = gkOpt w := by
  cases w with
  | none => simp only [Core.mapOpt, Txt.optWordText, gkOpt]
  | some w => simp only [Core.mapOpt, Txt.optWordText, gkOpt]; exact h w hw

theorem mapSubst_text (h : ∀ k hk, Txt.wordText (rec k hk) = gkText k) (s hs) :
    Txt.substText (stringCore.mapSubst rec s hs) = gkSubst s := by
  cases s with
  | Arith a =>
    cases a <;> simp [Core.mapSubst, Txt.substText, gkSubst, Txt.optArithText, mapArith_text]
  | Command g => simp only [Core.mapSubst, Txt.substText, gkSubst]
  | Len p => simp only [Core.mapSubst, Txt.substText, gkSubst]; exact mapParam_text p
  | _ =>
    simp only [Core.mapSubst, Txt.substText, gkSubst]
    exact congr (congrArg _ (mapParam_text _)) (mapOpt_text h _ _)

theorem mapSimple_text (h : ∀ k hk, Txt.wordText (rec k hk) = gkText k) (s hs) :
    Txt.simpleText (stringCore.mapSimple rec s hs) = gkSimple s := by
  cases s with
  | Param p => simp only [Core.mapSimple, Txt.simpleText, gkSimple]; exact mapParam_text p
  | Subst s => simp only [Core.mapSimple, Txt.simpleText, gkSimple]; exact mapSubst_text h _ _
  | _ => simp only [Core.mapSimple, Txt.simpleText, gkSimple, Txt.substText, id]

theorem simples_text (h : ∀ k hk, Txt.wordText (rec k hk) = gkText k) (v hv) :
    Txt.simplesText (v.pmap (stringCore.mapSimple rec) hv) = gkSimples v := by
  induction v with
  | nil => rfl
  | cons w ws ih =>
    simp only [List.pmap_cons, Txt.simplesText, gkSimples]
    exact congr (congrArg _ (mapSimple_text h _ _)) (ih _)

theorem mapWord_text (h : ∀ k hk, Txt.wordText (rec k hk) = gkText k) (s hs) :
    Txt.partText (stringCore.mapWord rec s hs) = gkPart s := by
  cases s with
  | Simple s => simp only [Core.mapWord, Txt.partText, gkPart]; exact mapSimple_text h _ _
  | DoubleQuoted s => simp only [Core.mapWord, Txt.partText, gkPart]; exact simples_text h _ _
  | SingleQuoted s => simp only [Core.mapWord, Txt.partText, gkPart, id]

theorem words_text (h : ∀ k hk, Txt.wordText (rec k hk) = gkText k) (v hv) :
    Txt.partsText (v.pmap (stringCore.mapWord rec) hv) = gkParts v := by
  induction v with
  | nil => rfl
  | cons w ws ih =>
    simp only [List.pmap_cons, Txt.partsText, gkParts]
    exact congr (congrArg _ (mapWord_text h _ _)) (ih _)

theorem mapComplex_text (h : ∀ k hk, Txt.wordText (rec k hk) = gkText k) (s hs) :
    Txt.complexText (stringCore.mapComplex rec s hs) = gkText s := by
  cases s with
  | Single s => simp only [Core.mapComplex, Txt.complexText, gkText]; exact mapWord_text h _ _
  | Concat s => simp only [Core.mapComplex, Txt.complexText, gkText]; exact words_text h _ _
end

theorem wordD_text (n : Nat) : ∀ k h, Txt.wordText (stringCore.wordD n k h) = gkText k := by
  induction n with
  | zero => intro k h; exact absurd h (by cases k <;> simp [ComplexWordKind.depth])
  | succ n ih =>
    intro k h
    rw [Core.wordD, ← gkText_compress k]
    simp only [Txt.wordText]
    exact mapComplex_text ih _ _

/-- The word the default builder builds has the text it was given. -/
theorem word_text (k : GKind) : Txt.wordText (stringCore.word k) = gkText k := wordD_text _ _ _

theorem gkOpt_wordOf (ws) : gkOpt (wordOf ws) = gkParts ws := by
  match ws with
  | [] => rfl
  | [w] => simp [wordOf, gkOpt, gkText, gkParts]
  | w :: v :: ws => simp [wordOf, gkOpt, gkText]

/-- The text of parts of a double quoted word. -/
def gkInterp : List (Str ⊕ SimpleWordKind (TopLevelCommand Str)) → Str
  | [] => []
  | .inl s :: ps => s ++ gkInterp ps
  | .inr w :: ps => gkSimple w ++ gkInterp ps

theorem gkSimples_append (a b) : gkSimples (a ++ b) = gkSimples a ++ gkSimples b := by simp [gkSimples_eq]

theorem gkSimples_textOf (s) : gkSimples (textOf s) = s := by
  unfold textOf; split
  · simp [gkSimples, *]
  · simp [gkSimples, gkSimple]

theorem gkSimples_gather (s ps) : gkSimples (gather s ps) = s ++ gkInterp ps := by
  induction ps generalizing s with
  | nil => simp [gather, gkSimples_textOf, gkInterp]
  | cons p ps ih =>
    cases p with
    | inl t => simp [gather, ih, gkInterp]
    | inr w => simp [gather, gkSimples_append, gkSimples, gkSimples_textOf, ih, gkInterp]

theorem gkText_hereWord (ps) : gkText (hereWord ps) = gkSimples ps := by
  match ps with
  | [] => rfl
  | [w] => simp [hereWord, gkText, gkPart, gkSimples]
  | w :: v :: ws => simp [hereWord, gkText, gkParts_eq, gkSimples_eq, List.flatMap_map, gkPart, gkParts, gkSimples]

end Conch
