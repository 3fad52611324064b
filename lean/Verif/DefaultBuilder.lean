import Verif.Compress
/-!
# The provided builders (`src/ast/builder/default_builder.rs`, `empty_builder.rs`)
-/
namespace Conch

/-! ## Nesting depth of words (a measure for the model's recursion; not in the code) -/

mutual
def ComplexWordKind.depth {C : Type} : ComplexWordKind C → Nat
  | .Concat ws => depthWords ws + 1
  | .Single w => w.depth + 1
def depthWords {C : Type} : List (WordKind C) → Nat
  | [] => 0
  | w :: ws => max w.depth (depthWords ws)
def WordKind.depth {C : Type} : WordKind C → Nat
  | .Simple s => s.depth
  | .DoubleQuoted ss => depthSimples ss
  | .SingleQuoted _ => 0
def depthSimples {C : Type} : List (SimpleWordKind C) → Nat
  | [] => 0
  | s :: ss => max s.depth (depthSimples ss)
def SimpleWordKind.depth {C : Type} : SimpleWordKind C → Nat
  | .Subst s => depthSubst s
  | _ => 0
def depthSubst {C : Type} : ParameterSubstitutionKind (ComplexWordKind C) C → Nat
  | .Default _ _ w | .Assign _ _ w | .Error _ _ w | .Alternative _ _ w
  | .RemoveSmallestSuffix _ w | .RemoveLargestSuffix _ w | .RemoveSmallestPrefix _ w
  | .RemoveLargestPrefix _ w => depthOpt w
  | _ => 0
def depthOpt {C : Type} : Option (ComplexWordKind C) → Nat
  | none => 0
  | some w => w.depth
end

theorem depthSimples_le {C : Type} {n : Nat} {ss : List (SimpleWordKind C)} :
    depthSimples ss ≤ n ↔ ∀ s ∈ ss, s.depth ≤ n := by
  induction ss with
  | nil => simp [depthSimples]
  | cons s ss ih => simp [depthSimples, ih, Nat.max_le]

theorem depthWords_le {C : Type} {n : Nat} {ws : List (WordKind C)} :
    depthWords ws ≤ n ↔ ∀ w ∈ ws, w.depth ≤ n := by
  induction ws with
  | nil => simp [depthWords]
  | cons s ss ih => simp [depthWords, ih, Nat.max_le]

/-- A merge that never creates a deeper element keeps the depth bound. -/
theorem mergeFrom_forall {α : Type} (f : α → α → CoalesceResult α) (Q : α → Prop)
    (hok : ∀ a b c, f a b = .ok c → Q a → Q b → Q c)
    (herr : ∀ a b l r, f a b = .error (l, r) → Q a → Q b → Q l ∧ Q r) :
    ∀ (xs : List α) (x : α), Q x → (∀ y ∈ xs, Q y) → ∀ z ∈ mergeFrom f x xs, Q z := by
  intro xs
  induction xs with
  | nil => intro x hx _ z hz; simp [mergeFrom] at hz; exact hz ▸ hx
  | cons y ys ih =>
    intro x hx hxs z hz
    unfold mergeFrom at hz
    have hy := hxs y (by simp)
    cases hf : f x y with
    | ok c =>
      rw [hf] at hz
      exact ih c (hok x y c hf hx hy) (fun w hw => hxs w (by simp [hw])) z hz
    | error p =>
      obtain ⟨l, r⟩ := p
      rw [hf] at hz
      obtain ⟨hl, hr⟩ := herr x y l r hf hx hy
      simp at hz
      rcases hz with rfl | hz
      · exact hl
      · exact ih r hr (fun w hw => hxs w (by simp [hw])) z hz

theorem merge_forall {α : Type} (f : α → α → CoalesceResult α) (Q : α → Prop)
    (hok : ∀ a b c, f a b = .ok c → Q a → Q b → Q c)
    (herr : ∀ a b l r, f a b = .error (l, r) → Q a → Q b → Q l ∧ Q r)
    (xs : List α) (h : ∀ y ∈ xs, Q y) : ∀ z ∈ merge f xs, Q z := by
  cases xs with
  | nil => simp [merge]
  | cons x xs =>
    exact mergeFrom_forall f Q hok herr xs x (h x (by simp)) (fun y hy => h y (by simp [hy]))

theorem coalesceSimple_depth {C : Type} (n : Nat) (xs : List (SimpleWordKind C))
    (h : ∀ y ∈ xs, y.depth ≤ n) : ∀ z ∈ merge coalesceSimple xs, z.depth ≤ n := by
  apply merge_forall coalesceSimple _ _ _ xs h
  · intro a b c hc ha hb
    unfold coalesceSimple at hc
    split at hc <;> cases hc
    simp [SimpleWordKind.depth]
  · intro a b l r hc ha hb
    unfold coalesceSimple at hc
    split at hc <;> cases hc
    exact ⟨ha, hb⟩

theorem coalesceWord_depth {C : Type} (n : Nat) (xs : List (WordKind C))
    (h : ∀ y ∈ xs, y.depth ≤ n) : ∀ z ∈ merge coalesceWord xs, z.depth ≤ n := by
  apply merge_forall coalesceWord _ _ _ xs h
  · intro a b c hc ha hb
    unfold coalesceWord at hc
    split at hc
    · rename_i a b
      unfold coalesceSimple at hc
      split at hc
      · cases hc
        rename_i h
        split at h <;> cases h
        simp [WordKind.depth, SimpleWordKind.depth]
      · cases hc
    · cases hc; simp [WordKind.depth]
    · cases hc
      simp only [WordKind.depth, depthSimples_le] at ha hb ⊢
      rw [Coalesce.collect_eq]
      apply coalesceSimple_depth
      intro y hy
      simp at hy
      rcases hy with hy | hy
      · exact ha y hy
      · exact hb y hy
    · cases hc
  · intro a b l r hc ha hb
    unfold coalesceWord at hc
    split at hc
    · unfold coalesceSimple at hc
      split at hc
      · cases hc
      · cases hc
        rename_i h
        split at h <;> cases h
        exact ⟨ha, hb⟩
    · cases hc
    · cases hc
    · cases hc; exact ⟨ha, hb⟩

theorem compress_depth {C : Type} (k : ComplexWordKind C) : (compress k).depth ≤ k.depth := by
  unfold compress
  split
  · rename_i v
    simp only [ComplexWordKind.depth, WordKind.depth, Coalesce.collect_eq]
    have := depthSimples_le.2 (coalesceSimple_depth (depthSimples v) v (depthSimples_le.1 (by omega)))
    omega
  · omega
  · rename_i v
    rw [Coalesce.collect_eq]
    have := depthWords_le.2 (coalesceWord_depth (depthWords v) v (depthWords_le.1 (by omega)))
    split
    · rename_i w h
      rw [h] at this
      simp [depthWords] at this
      simp only [ComplexWordKind.depth]
      omega
    · simp only [ComplexWordKind.depth]
      omega

/-! ## `CoreBuilder` -/

mutual
/-- `map_arith`, default_builder.rs:552-592. -/
def mapArith {T : Type} (ofString : Str → T) : DefaultArithmetic → Arithmetic T
  | .Var v => .Var (ofString v)
  | .Literal l => .Literal l
  | .Pow a b => .Pow (mapArith ofString a) (mapArith ofString b)
  | .PostIncr p => .PostIncr (ofString p)
  | .PostDecr p => .PostDecr (ofString p)
  | .PreIncr p => .PreIncr (ofString p)
  | .PreDecr p => .PreDecr (ofString p)
  | .UnaryPlus a => .UnaryPlus (mapArith ofString a)
  | .UnaryMinus a => .UnaryMinus (mapArith ofString a)
  | .LogicalNot a => .LogicalNot (mapArith ofString a)
  | .BitwiseNot a => .BitwiseNot (mapArith ofString a)
  | .Mult a b => .Mult (mapArith ofString a) (mapArith ofString b)
  | .Div a b => .Div (mapArith ofString a) (mapArith ofString b)
  | .Modulo a b => .Modulo (mapArith ofString a) (mapArith ofString b)
  | .Add a b => .Add (mapArith ofString a) (mapArith ofString b)
  | .Sub a b => .Sub (mapArith ofString a) (mapArith ofString b)
  | .ShiftLeft a b => .ShiftLeft (mapArith ofString a) (mapArith ofString b)
  | .ShiftRight a b => .ShiftRight (mapArith ofString a) (mapArith ofString b)
  | .Less a b => .Less (mapArith ofString a) (mapArith ofString b)
  | .LessEq a b => .LessEq (mapArith ofString a) (mapArith ofString b)
  | .Great a b => .Great (mapArith ofString a) (mapArith ofString b)
  | .GreatEq a b => .GreatEq (mapArith ofString a) (mapArith ofString b)
  | .Eq a b => .Eq (mapArith ofString a) (mapArith ofString b)
  | .NotEq a b => .NotEq (mapArith ofString a) (mapArith ofString b)
  | .BitwiseAnd a b => .BitwiseAnd (mapArith ofString a) (mapArith ofString b)
  | .BitwiseXor a b => .BitwiseXor (mapArith ofString a) (mapArith ofString b)
  | .BitwiseOr a b => .BitwiseOr (mapArith ofString a) (mapArith ofString b)
  | .LogicalAnd a b => .LogicalAnd (mapArith ofString a) (mapArith ofString b)
  | .LogicalOr a b => .LogicalOr (mapArith ofString a) (mapArith ofString b)
  | .Ternary a b c => .Ternary (mapArith ofString a) (mapArith ofString b) (mapArith ofString c)
  | .Assign v a => .Assign (ofString v) (mapArith ofString a)
  | .Sequence as => .Sequence (mapAriths ofString as)
/-- `ariths.into_iter().map(map_arith).collect()`, default_builder.rs:590. -/
def mapAriths {T : Type} (ofString : Str → T) : List DefaultArithmetic → List (Arithmetic T)
  | [] => []
  | a :: as => mapArith ofString a :: mapAriths ofString as
end

/-- `map_param`, default_builder.rs:594-607. -/
def mapParam {T : Type} (ofString : Str → T) : DefaultParameter → Parameter T
  | .At => .At
  | .Star => .Star
  | .Pound => .Pound
  | .Question => .Question
  | .Dash => .Dash
  | .Dollar => .Dollar
  | .Bang => .Bang
  | .Positional p => .Positional p
  | .Var v => .Var (ofString v)

/-- `BuilderPipeableCommand`, default_builder.rs:265-270. -/
abbrev BuilderPipeableCommand (T W C F : Type) :=
  PipeableCommand T (SimpleCommand T W (Redirect W)) (ShellCompoundCommand T W C) F

/-- The type parameters of `CoreBuilder` and the conversions it requires,
default_builder.rs:272-287. -/
structure Core where
  T : Type
  W : Type
  C : Type
  F : Type
  ofString : Str → T
  ofWord : ShellWord T W C → W
  ofCommand : Command (AndOrList (ListableCommand (BuilderPipeableCommand T W C F))) → C
  ofCompound : ShellCompoundCommand T W C → F

namespace Core
variable (K : Core)

/-- The type of simple words, ast.rs:128-155 as used at default_builder.rs:619. -/
abbrev Simple := SimpleWord K.T (Parameter K.T)
  (ParameterSubstitution (Parameter K.T) K.W K.C (Arithmetic K.T))

/-- `map!`, default_builder.rs:543-550, with the recursive call of `word` as an argument. -/
def mapOpt {n : Nat} (rec : (k : ComplexWordKind K.C) → k.depth ≤ n → K.W) :
    (w : Option (ComplexWordKind K.C)) → depthOpt w ≤ n → Option K.W
  | none, _ => none
  | some w, h => some (rec w h)

/-- The substitution part of `map_simple`, default_builder.rs:631-655. -/
def mapSubst {n : Nat} (rec : (k : ComplexWordKind K.C) → k.depth ≤ n → K.W) :
    (s : ParameterSubstitutionKind (ComplexWordKind K.C) K.C) → depthSubst s ≤ n →
      ParameterSubstitution (Parameter K.T) K.W K.C (Arithmetic K.T)
  | .Len p, _ => .Len (mapParam K.ofString p)
  | .Command c, _ => .Command c.commands
  | .Arith a, _ => .Arith (a.map (mapArith K.ofString))
  | .Default c p w, h => .Default c (mapParam K.ofString p) (K.mapOpt rec w h)
  | .Assign c p w, h => .Assign c (mapParam K.ofString p) (K.mapOpt rec w h)
  | .Error c p w, h => .Error c (mapParam K.ofString p) (K.mapOpt rec w h)
  | .Alternative c p w, h => .Alternative c (mapParam K.ofString p) (K.mapOpt rec w h)
  | .RemoveSmallestSuffix p w, h => .RemoveSmallestSuffix (mapParam K.ofString p) (K.mapOpt rec w h)
  | .RemoveLargestSuffix p w, h => .RemoveLargestSuffix (mapParam K.ofString p) (K.mapOpt rec w h)
  | .RemoveSmallestPrefix p w, h => .RemoveSmallestPrefix (mapParam K.ofString p) (K.mapOpt rec w h)
  | .RemoveLargestPrefix p w, h => .RemoveLargestPrefix (mapParam K.ofString p) (K.mapOpt rec w h)

/-- `map_simple`, default_builder.rs:609-660. -/
def mapSimple {n : Nat} (rec : (k : ComplexWordKind K.C) → k.depth ≤ n → K.W) :
    (s : SimpleWordKind K.C) → s.depth ≤ n → K.Simple
  | .Literal s, _ => .Literal (K.ofString s)
  | .Escaped s, _ => .Escaped (K.ofString s)
  | .Param p, _ => .Param (mapParam K.ofString p)
  | .Star, _ => .Star
  | .Question, _ => .Question
  | .SquareOpen, _ => .SquareOpen
  | .SquareClose, _ => .SquareClose
  | .Tilde, _ => .Tilde
  | .Colon, _ => .Colon
  | .CommandSubst c, _ => .Subst (.Command c.commands)
  | .Subst s, h => .Subst (K.mapSubst rec s (by simpa [SimpleWordKind.depth] using h))

/-- `map_word`, default_builder.rs:662-673. -/
def mapWord {n : Nat} (rec : (k : ComplexWordKind K.C) → k.depth ≤ n → K.W) :
    (w : WordKind K.C) → w.depth ≤ n → Word K.T K.Simple
  | .Simple s, h => .Simple (K.mapSimple rec s (by simpa [WordKind.depth] using h))
  | .SingleQuoted s, _ => .SingleQuoted (K.ofString s)
  | .DoubleQuoted v, h =>
    .DoubleQuoted (v.pmap (K.mapSimple rec) (depthSimples_le.1 (by simpa [WordKind.depth] using h)))

/-- The body of `word`, default_builder.rs:675-685, after `compress`. -/
def mapComplex {n : Nat} (rec : (k : ComplexWordKind K.C) → k.depth ≤ n → K.W) :
    (k : ComplexWordKind K.C) → k.depth ≤ n + 1 → ShellWord K.T K.W K.C
  | .Single s, h => .Single (K.mapWord rec s (by simp [ComplexWordKind.depth] at h; omega))
  | .Concat ws, h =>
    .Concat (ws.pmap (K.mapWord rec)
      (depthWords_le.1 (by simp [ComplexWordKind.depth] at h; omega)))

/-- `word`, default_builder.rs:542-686, recursing on the nesting depth. -/
def wordD : (n : Nat) → (k : ComplexWordKind K.C) → k.depth ≤ n → K.W
  | 0, k, h => absurd h (by cases k <;> simp [ComplexWordKind.depth])
  | n + 1, k, h =>
    K.ofWord (K.mapComplex (wordD n) (compress k) (Nat.le_trans (compress_depth k) h))

/-- `word`, default_builder.rs:542-686. -/
def word (k : ComplexWordKind K.C) : K.W := K.wordD k.depth k (Nat.le_refl _)

/-- `simple_command`'s conversion of variable names, default_builder.rs:346-352. -/
def mapEnvVar : RedirectOrEnvVar (Redirect K.W) Str K.W → RedirectOrEnvVar (Redirect K.W) K.T K.W
  | .Redirect r => .Redirect r
  | .EnvVar k v => .EnvVar (K.ofString k) v

/-- `redirect`, default_builder.rs:689-702. -/
def mapRedirect {W : Type} : RedirectKind W → Redirect W
  | .Read fd p => .Read fd p
  | .Write fd p => .Write fd p
  | .ReadWrite fd p => .ReadWrite fd p
  | .Append fd p => .Append fd p
  | .Clobber fd p => .Clobber fd p
  | .Heredoc fd p => .Heredoc fd p
  | .DupRead fd p => .DupRead fd p
  | .DupWrite fd p => .DupWrite fd p

/-- The types of `CoreBuilder`, default_builder.rs:279-287. -/
@[reducible] def types : BTypes where
  Command := K.C
  CommandList := AndOrList (ListableCommand (BuilderPipeableCommand K.T K.W K.C K.F))
  ListableCommand := ListableCommand (BuilderPipeableCommand K.T K.W K.C K.F)
  PipeableCommand := BuilderPipeableCommand K.T K.W K.C K.F
  CompoundCommand := ShellCompoundCommand K.T K.W K.C
  Word := K.W
  Redirect := Redirect K.W
  Error := Empty

/-- The methods of `CoreBuilder`, default_builder.rs:290-702. `pipeline` panics on an empty list
(debug assertion, default_builder.rs:327, and `unwrap`, :336). -/
def call : (c : Call K.types) → BOut Empty c.Ret
  | .completeCommand _ list .Amp _ => .ok (K.ofCommand (.Job list))
  | .completeCommand _ list .Semi _ => .ok (K.ofCommand (.List list))
  | .completeCommand _ list .Other _ => .ok (K.ofCommand (.List list))
  | .completeCommand _ list .Newline _ => .ok (K.ofCommand (.List list))
  | .andOrList first rest => .ok { first := first, rest := rest.map (·.2) }
  | .pipeline bang cmds =>
    match bang, cmds.map (·.2) with
    | _, [] => .panic
    | false, [c] => .ok (.Single c)
    | bang, cs => .ok (.Pipe bang cs)
  | .simpleCommand vars words =>
    .ok (.Simple { redirectsOrEnvVars := vars.map K.mapEnvVar, redirectsOrCmdWords := words })
  | .braceGroup g io => .ok { kind := .Brace g.commands, io := io }
  | .subshell g io => .ok { kind := .Subshell g.commands, io := io }
  | .loopCommand .While p io =>
    .ok { kind := .While { guard := p.guard.commands, body := p.body.commands }, io := io }
  | .loopCommand .Until p io =>
    .ok { kind := .Until { guard := p.guard.commands, body := p.body.commands }, io := io }
  | .ifCommand f io =>
    .ok { kind := .If (f.conditionals.map fun p =>
                { guard := p.guard.commands, body := p.body.commands })
              (f.elseBranch.map (·.commands))
          io := io }
  | .forCommand f io =>
    .ok { kind := .For (K.ofString f.var) (f.words.map (·.2.1)) f.body.commands, io := io }
  | .caseCommand f io =>
    .ok { kind := .Case f.word (f.arms.map fun a =>
            { patterns := a.patterns.patternAlternatives, body := a.body.commands })
          io := io }
  | .compoundCommandIntoPipeable cmd => .ok (.Compound cmd)
  | .functionDeclaration name _ body => .ok (.FunctionDef (K.ofString name) (K.ofCompound body))
  | .comments _ => .ok ()
  | .word kind => .ok (K.word kind)
  | .redirect kind => .ok (mapRedirect kind)

/-- `CoreBuilder` as a `Builder`: it has no state, default_builder.rs:272-278. -/
@[reducible] def builder : Builder where
  toBTypes := K.types
  State := Unit
  call c s := (K.call c, s)

end Core

/-! ## The concrete syntax trees -/

mutual
/-- `TopLevelWord` / `AtomicTopLevelWord`, ast.rs:549-601. -/
inductive TopLevelWord (T : Type)
  | mk (w : ComplexWord (Word T (SimpleWord T (Parameter T)
      (ParameterSubstitution (Parameter T) (TopLevelWord T) (TopLevelCommand T) (Arithmetic T)))))
/-- `TopLevelCommand` / `AtomicTopLevelCommand`, ast.rs:492-547. -/
inductive TopLevelCommand (T : Type)
  | mk (c : Command (AndOrList (ListableCommand
      (PipeableCommand T
        (SimpleCommand T (TopLevelWord T) (Redirect (TopLevelWord T)))
        (CompoundCommand (CompoundCommandKind T (TopLevelWord T) (TopLevelCommand T))
          (Redirect (TopLevelWord T)))
        (CompoundCommand (CompoundCommandKind T (TopLevelWord T) (TopLevelCommand T))
          (Redirect (TopLevelWord T)))))))
end

/-- `StringBuilder` (and, up to reference counting, `RcBuilder` and `ArcBuilder`),
default_builder.rs:195-228. -/
@[reducible] def stringCore : Core where
  T := Str
  W := TopLevelWord Str
  C := TopLevelCommand Str
  F := ShellCompoundCommand Str (TopLevelWord Str) (TopLevelCommand Str)
  ofString := id
  ofWord := .mk
  ofCommand := .mk
  ofCompound := id

/-- `DefaultBuilder<String>`, default_builder.rs:195-228. -/
@[reducible] def DefaultBuilder : Builder := stringCore.builder

/-! ## `EmptyBuilder` -/

/-- The types of `EmptyBuilder`, empty_builder.rs:26-33. -/
@[reducible] def EmptyBuilder.types : BTypes :=
  { Command := Unit, CommandList := Unit, ListableCommand := Unit, PipeableCommand := Unit
    CompoundCommand := Unit, Word := Unit, Redirect := Unit, Error := Empty }

/-- The methods of `EmptyBuilder`, empty_builder.rs:35-144. -/
def EmptyBuilder.call : (c : Call EmptyBuilder.types) → BOut Empty c.Ret
  | .completeCommand .. | .andOrList .. | .pipeline .. | .simpleCommand .. | .braceGroup ..
  | .subshell .. | .loopCommand .. | .ifCommand .. | .forCommand .. | .caseCommand ..
  | .compoundCommandIntoPipeable .. | .functionDeclaration .. | .comments .. | .word ..
  | .redirect .. => .ok ()

/-- `EmptyBuilder`, empty_builder.rs:10. -/
@[reducible] def EmptyBuilder : Builder where
  toBTypes := EmptyBuilder.types
  State := Unit
  call c s := (EmptyBuilder.call c, s)

end Conch
