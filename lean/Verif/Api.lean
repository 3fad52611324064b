import Verif.RelCmd
import Verif.PassCmd
/-!
# The public methods of `Parser`, and running them on the code's token stream

`Method` lists every public parsing method (parse.rs:460-2536). `Method.run` runs one of them. The
theorems of the property files are about all of them at once, on every state the parser can be in
(`PSt CIter B`: the stream of `iter.rs` with its representation invariant).
-/
namespace Conch

/-- The public methods of `Parser` with their arguments, parse.rs:468-2536. -/
inductive Method
  | completeCommand | andOrList | pipeline | command | simpleCommand | redirectList | redirect
  | redirectHeredoc (fd : Option Nat)
  | word | wordPreserveTrailingWhitespace | backtickedCommandSubstitution | parameter
  | doGroup | braceGroup | subshell | compoundCommand | loopCommand | ifCommand | forCommand
  | caseCommand | maybeFunctionDeclaration | functionDeclaration
  | skipWhitespace | linebreak | newline
  | peekReservedToken (ts : List Token) | peekReservedWord (ws : List Str)
  | reservedToken (ts : List Token) | reservedWord (ws : List Str)
  | commandGroup (cfg : Delims)
  | arithmeticSubstitution

/-- What a method returns when it succeeds (signatures at parse.rs:468-2536; `Err(())` of
`reserved_word` is `none`). -/
@[reducible] def Method.Ret (T : BTypes) : Method → Type
  | .completeCommand => Option T.Command
  | .andOrList => T.CommandList
  | .pipeline => T.ListableCommand
  | .command | .simpleCommand | .functionDeclaration => T.PipeableCommand
  | .redirectList => List T.Redirect
  | .redirect => Option (T.Redirect ⊕ T.Word)
  | .redirectHeredoc _ => T.Redirect
  | .word | .wordPreserveTrailingWhitespace => Option T.Word
  | .backtickedCommandSubstitution | .parameter => T.Word
  | .doGroup | .braceGroup | .subshell | .commandGroup _ => CommandGroup T.Command
  | .compoundCommand => T.CompoundCommand
  | .loopCommand => LoopKind × GuardBodyPairGroup T.Command
  | .ifCommand => IfFragments T.Command
  | .forCommand => ForFragments T.Word T.Command
  | .caseCommand => CaseFragments T.Word T.Command
  | .maybeFunctionDeclaration => Option T.PipeableCommand
  | .skipWhitespace => Unit
  | .linebreak => List Nl
  | .newline => Option Nl
  | .peekReservedToken _ => Option Token
  | .peekReservedWord _ => Option Str
  | .reservedToken _ => Token
  | .reservedWord _ => Option Str
  | .arithmeticSubstitution => DefaultArithmetic

section
variable {I : Type} [TokStream I] {B : Builder}

/-- Calls a public method of `Parser`, parse.rs:468-2536 (dispatch only; each method is modelled in `ParserCmd`,
`ParserWord`, `ParserLex` or `ParserArith`). -/
def Method.run : (m : Method) → P I B (m.Ret B.toBTypes)
  | .completeCommand => Conch.run Conch.completeCommand
  | .andOrList => Conch.run Conch.andOrList
  | .pipeline => Conch.run Conch.pipeline
  | .command => Conch.run Conch.command
  | .simpleCommand => Conch.run Conch.simpleCommand
  | .functionDeclaration => Conch.run Conch.functionDeclaration
  | .redirectList => Conch.run Conch.redirectList
  | .redirect => Conch.run Conch.redirect
  | .redirectHeredoc fd => Conch.run (Conch.redirectHeredoc · fd)
  | .word => Conch.run Conch.word
  | .wordPreserveTrailingWhitespace => Conch.run Conch.wordPreserve
  | .backtickedCommandSubstitution => Conch.run Conch.backtickedCommandSubstitution
  | .parameter => Conch.run Conch.parameter
  | .doGroup => Conch.run Conch.doGroup
  | .braceGroup => Conch.run Conch.braceGroup
  | .subshell => Conch.run Conch.subshell
  | .commandGroup cfg => Conch.run (Conch.commandGroup · cfg)
  | .compoundCommand => Conch.run Conch.compoundCommand
  | .loopCommand => Conch.run Conch.loopCommand
  | .ifCommand => Conch.run Conch.ifCommand
  | .forCommand => Conch.run Conch.forCommand
  | .caseCommand => Conch.run Conch.caseCommand
  | .maybeFunctionDeclaration => Conch.run Conch.maybeFunctionDeclaration
  | .skipWhitespace => Conch.skipWhitespace
  | .linebreak => Conch.linebreak
  | .newline => Conch.newline
  | .peekReservedToken ts => Conch.peekReservedToken ts
  | .peekReservedWord ws => Conch.peekReservedWord ws
  | .reservedToken ts => Conch.reservedToken ts
  | .reservedWord ws => Conch.reservedWord ws
  | .arithmeticSubstitution => Conch.arithmeticSubstitution

end

/-- The image of a method's result under maps between builder types (no code: used to compare builders). -/
def Method.mapRet {S T : BTypes} (F : BMap S T) : (m : Method) → m.Ret S → m.Ret T
  | .completeCommand, x => x.map F.command
  | .andOrList, x => F.commandList x
  | .pipeline, x => F.listable x
  | .command, x => F.pipeable x
  | .simpleCommand, x => F.pipeable x
  | .functionDeclaration, x => F.pipeable x
  | .redirectList, x => x.map F.redirect
  | .redirect, x => x.map (Sum.map F.redirect F.word)
  | .redirectHeredoc _, x => F.redirect x
  | .word, x => x.map F.word
  | .wordPreserveTrailingWhitespace, x => x.map F.word
  | .backtickedCommandSubstitution, x => F.word x
  | .parameter, x => F.word x
  | .doGroup, x => x.map F.command
  | .braceGroup, x => x.map F.command
  | .subshell, x => x.map F.command
  | .commandGroup _, x => x.map F.command
  | .compoundCommand, x => F.compound x
  | .loopCommand, x => (x.1, x.2.map F.command)
  | .ifCommand, x => x.map F.command
  | .forCommand, x => x.map F.command F.word
  | .caseCommand, x => x.map F.command F.word
  | .maybeFunctionDeclaration, x => x.map F.pipeable
  | .skipWhitespace, x => x
  | .linebreak, x => x
  | .newline, x => x
  | .peekReservedToken _, x => x
  | .peekReservedWord _, x => x
  | .reservedToken _, x => x
  | .reservedWord _, x => x
  | .arithmeticSubstitution, x => x

/-- All methods run in a related way on related streams and builders. -/
theorem rel_method {I J : Type} [TokStream I] [TokStream J] {B C : Builder} (S : StreamSim I J)
    (H : Hom B C) (m : Method) : Rel S H (m.mapRet H.toBMap) (m.run (I := I)) (m.run (I := J)) := by
  cases m with
  | completeCommand => exact rel_run fun _ _ => rel_completeCommand
  | andOrList => exact rel_run fun _ _ => rel_andOrList
  | pipeline => exact rel_run fun _ _ => rel_pipeline
  | command => exact rel_run fun _ _ => rel_command
  | simpleCommand => exact rel_run fun _ _ => rel_simpleCommand
  | redirectList => exact rel_run fun _ _ => rel_redirectList
  | redirect => exact rel_run fun _ _ => rel_redirect
  | redirectHeredoc fd => exact rel_run fun _ _ h => rel_redirectHeredoc h fd
  | word => exact rel_run fun _ _ => rel_word
  | wordPreserveTrailingWhitespace => exact rel_run fun _ _ => rel_wordPreserve
  | backtickedCommandSubstitution => exact rel_run fun _ _ => rel_backtickedCommandSubstitution
  | parameter => exact rel_run fun _ _ => rel_parameter
  | doGroup => exact rel_run fun _ _ => rel_doGroup
  | braceGroup => exact rel_run fun _ _ => rel_braceGroup
  | subshell => exact rel_run fun _ _ h => rel_subshellInternal h _
  | compoundCommand => exact rel_run fun _ _ => rel_compoundCommand
  | loopCommand => exact rel_run fun _ _ => rel_loopCommand
  | ifCommand => exact rel_run fun _ _ => rel_ifCommand
  | forCommand => exact rel_run fun _ _ => rel_forCommand
  | caseCommand => exact rel_run fun _ _ => rel_caseCommand
  | maybeFunctionDeclaration => exact rel_run fun _ _ => rel_maybeFunctionDeclaration
  | functionDeclaration => exact rel_run fun _ _ => rel_functionDeclaration
  | skipWhitespace => exact rel_skipWhitespace
  | linebreak => exact rel_linebreak
  | newline => exact rel_newline
  | peekReservedToken ts => exact rel_peekReservedToken ts
  | peekReservedWord ws => exact rel_peekReservedWord ws
  | reservedToken ts => exact rel_reservedToken ts
  | reservedWord ws => exact rel_reservedWord ws
  | commandGroup cfg => exact rel_run fun _ _ h => rel_commandGroup h cfg
  | arithmeticSubstitution => exact rel_arithmeticSubstitution

/-- All methods satisfy every theory. -/
theorem tr_method {B : Builder} {T : Theory B} (m : Method) {s : PSt AIter B} (hi : T.Inv s)
    (hlb : m = .braceGroup → T.LB ∨ Spec.NoBlank s.it.rest := by exact fun _ => .inl trivial) :
    T.Tr m.run s (fun _ _ => True) := by
  have l : s.len ≤ s.len + 1 := by omega
  cases m with
  | completeCommand =>
    exact tr_run hi fun R h => (tr_completeCommand h hi l).mono fun _ _ _ _ => trivial
  | andOrList => exact tr_run hi fun R h => (tr_andOrList h hi l).mono fun _ _ _ _ => trivial
  | pipeline => exact tr_run hi fun R h => (tr_pipeline h hi l).mono fun _ _ _ _ => trivial
  | command => exact tr_run hi fun R h => (tr_command h hi l).mono fun _ _ _ _ => trivial
  | simpleCommand => exact tr_run hi fun R h => (tr_simpleCommand h hi l).mono fun _ _ _ _ => trivial
  | redirectList => exact tr_run hi fun R h => (tr_redirectList h hi l).mono fun _ _ _ _ => trivial
  | redirect => exact tr_run hi fun R h => (tr_redirect h hi l).mono fun _ _ _ _ => trivial
  | redirectHeredoc fd =>
    by_cases hp : s.it.peek = some .DLess ∨ s.it.peek = some .DLessDash
    · exact tr_run hi fun R h => (tr_redirectHeredoc h hi l fd hp).mono fun _ _ _ _ => trivial
    · refine tr_run (f := fun R => Conch.redirectHeredoc R fd) hi fun R h => ?_
      unfold redirectHeredoc
      refine tr_bind (Q1 := fun _ _ => False) ?_ fun _ _ _ h => h.elim
      refine tr_bind (tr_eatMaybe hi _) ?_
      rintro a s1 f1 ⟨h1, h2⟩
      split
      · rename_i ha; exact absurd (.inl (h1 ha).1) hp
      · rename_i ha
        obtain ⟨rfl, -⟩ := h2 (by simpa using ha)
        refine tr_bind (tr_eatMaybe f1.inv _) ?_
        rintro a s2 f2 ⟨h1, h2⟩
        split
        · rename_i ha; exact absurd (.inr (h1 ha).1) hp
        · exact tr_unexpected f2.inv
  | word => exact tr_run hi fun R h => (tr_word h hi l).mono fun _ _ _ _ => trivial
  | wordPreserveTrailingWhitespace =>
    exact tr_run hi fun R h => (tr_wordPreserve h hi l).mono fun _ _ _ _ => trivial
  | backtickedCommandSubstitution =>
    exact tr_run hi fun R h => (tr_backtickedCommandSubstitution h hi l).mono fun _ _ _ _ => trivial
  | parameter =>
    exact tr_run hi fun R h => (tr_parameter h hi (by omega)).mono fun _ _ _ _ => trivial
  | doGroup => exact tr_run hi fun R h => (tr_doGroup h hi l).mono fun _ _ _ _ => trivial
  | braceGroup => exact tr_run hi fun R h => (tr_braceGroup h hi l (hlb rfl)).mono fun _ _ _ _ => trivial
  | subshell =>
    exact tr_run hi fun R h => (tr_subshellInternal h hi l _).mono fun _ _ _ _ => trivial
  | compoundCommand =>
    exact tr_run hi fun R h => (tr_compoundCommand h hi l).mono fun _ _ _ _ => trivial
  | loopCommand => exact tr_run hi fun R h => (tr_loopCommand h hi l).mono fun _ _ _ _ => trivial
  | ifCommand => exact tr_run hi fun R h => (tr_ifCommand h hi l).mono fun _ _ _ _ => trivial
  | forCommand => exact tr_run hi fun R h => (tr_forCommand h hi l).mono fun _ _ _ _ => trivial
  | caseCommand => exact tr_run hi fun R h => (tr_caseCommand h hi l).mono fun _ _ _ _ => trivial
  | maybeFunctionDeclaration =>
    exact tr_run hi fun R h => (tr_maybeFunctionDeclaration h hi l).mono fun _ _ _ _ => trivial
  | functionDeclaration =>
    exact tr_run hi fun R h => (tr_functionDeclaration h hi l).mono fun _ _ _ _ => trivial
  | skipWhitespace => exact (tr_skipWhitespace hi).mono fun _ _ _ _ => trivial
  | linebreak => exact (tr_linebreak hi).mono fun _ _ _ _ => trivial
  | newline => exact (tr_newline hi).mono fun _ _ _ _ => trivial
  | peekReservedToken ts => exact (tr_peekReservedToken hi ts).mono fun _ _ _ _ => trivial
  | peekReservedWord ws => exact (tr_peekReservedWord hi ws).mono fun _ _ _ _ => trivial
  | reservedToken ts => exact (tr_reservedToken hi ts).mono fun _ _ _ _ => trivial
  | reservedWord ws => exact (tr_reservedWord hi ws).mono fun _ _ _ _ => trivial
  | commandGroup cfg =>
    exact tr_run hi fun R h => (tr_commandGroup h hi (by omega) cfg).mono fun _ _ _ _ => trivial
  | arithmeticSubstitution => exact (tr_arithmeticSubstitution hi).mono fun _ _ _ _ => trivial

/-! ## From the code's stream to the list of tokens -/

section
variable {C W : Type}

theorem CommandGroup.map_id (g : CommandGroup C) : g.map id = g := by
  cases g; simp [CommandGroup.map]

theorem GuardBodyPairGroup.map_id (g : GuardBodyPairGroup C) : g.map id = g := by
  cases g; simp [GuardBodyPairGroup.map, CommandGroup.map_id]

theorem List.map_eq_self {α : Type} {f : α → α} (h : ∀ x, f x = x) (l : List α) : l.map f = l := by
  induction l with
  | nil => rfl
  | cons x l ih => simp [h, ih]

theorem Option.map_eq_self {α : Type} {f : α → α} (h : ∀ x, f x = x) (l : Option α) :
    l.map f = l := by
  cases l <;> simp [h]

theorem IfFragments.map_id (g : IfFragments C) : g.map id = g := by
  cases g
  simp [IfFragments.map, List.map_eq_self GuardBodyPairGroup.map_id,
    Option.map_eq_self CommandGroup.map_id]

theorem ForFragments.map_id (g : ForFragments W C) : g.map id id = g := by
  cases g
  simp [ForFragments.map, CommandGroup.map_id]

theorem CaseArm.map_id (g : CaseArm W C) : g.map id id = g := by
  rcases g with ⟨⟨a, b, c⟩, d, e⟩
  simp [CaseArm.map, CasePatternFragments.map, CommandGroup.map_id]

theorem CaseFragments.map_id (g : CaseFragments W C) : g.map id id = g := by
  cases g
  simp [CaseFragments.map, List.map_eq_self CaseArm.map_id]

mutual
theorem ComplexWordKind.map_id : ∀ w : ComplexWordKind C, w.map id = w
  | .Concat ws => by rw [ComplexWordKind.map, mapWordKinds_id]
  | .Single w => by rw [ComplexWordKind.map, WordKind.map_id]
theorem mapWordKinds_id : ∀ ws : List (WordKind C), mapWordKinds id ws = ws
  | [] => rfl
  | w :: ws => by rw [mapWordKinds, WordKind.map_id, mapWordKinds_id]
theorem WordKind.map_id : ∀ w : WordKind C, w.map id = w
  | .Simple s => by rw [WordKind.map, SimpleWordKind.map_id]
  | .DoubleQuoted ss => by rw [WordKind.map, mapSimpleKinds_id]
  | .SingleQuoted s => rfl
theorem mapSimpleKinds_id : ∀ ws : List (SimpleWordKind C), mapSimpleKinds id ws = ws
  | [] => rfl
  | w :: ws => by rw [mapSimpleKinds, SimpleWordKind.map_id, mapSimpleKinds_id]
theorem SimpleWordKind.map_id : ∀ w : SimpleWordKind C, w.map id = w
  | .Literal _ | .Param _ | .Escaped _ | .Star | .Question | .SquareOpen | .SquareClose | .Tilde
  | .Colon => rfl
  | .CommandSubst g => by rw [SimpleWordKind.map, CommandGroup.map_id]
  | .Subst s => by rw [SimpleWordKind.map, mapSubstKind_id]
theorem mapSubstKind_id : ∀ s : ParameterSubstitutionKind (ComplexWordKind C) C,
    mapSubstKind id s = s
  | .Command g => by rw [mapSubstKind, CommandGroup.map_id]
  | .Len _ | .Arith _ => rfl
  | .Default _ _ w => by rw [mapSubstKind, mapOptWord_id]
  | .Assign _ _ w => by rw [mapSubstKind, mapOptWord_id]
  | .Error _ _ w => by rw [mapSubstKind, mapOptWord_id]
  | .Alternative _ _ w => by rw [mapSubstKind, mapOptWord_id]
  | .RemoveSmallestSuffix _ w => by rw [mapSubstKind, mapOptWord_id]
  | .RemoveLargestSuffix _ w => by rw [mapSubstKind, mapOptWord_id]
  | .RemoveSmallestPrefix _ w => by rw [mapSubstKind, mapOptWord_id]
  | .RemoveLargestPrefix _ w => by rw [mapSubstKind, mapOptWord_id]
theorem mapOptWord_id : ∀ w : Option (ComplexWordKind C), mapOptWord id w = w
  | none => rfl
  | some w => by rw [mapOptWord, ComplexWordKind.map_id]
end

theorem ParseError.map_id {ε : Type} (e : ParseError ε) : e.map id = e := by cases e <;> rfl

end

/-- The identity between builder types (no code). -/
@[reducible] def BMap.id (T : BTypes) : BMap T T :=
  { command := _root_.id, commandList := _root_.id, listable := _root_.id, pipeable := _root_.id
    compound := _root_.id, word := _root_.id, redirect := _root_.id, error := _root_.id }

theorem Call.map_id {T : BTypes} (c : Call T) : c.map (BMap.id T) = c := by
  have hv : ∀ x : RedirectOrEnvVar T.Redirect Str T.Word, x.map id id = x := by
    rintro (_ | _) <;> simp [RedirectOrEnvVar.map]
  have hw : ∀ x : RedirectOrCmdWord T.Redirect T.Word, x.map id id = x := by
    rintro (_ | _) <;> rfl
  have hr : ∀ x : RedirectKind T.Word, x.map id = x := by
    intro x; cases x <;> rfl
  have ha : ∀ x : AndOr T.ListableCommand, x.map id = x := by
    intro x; cases x <;> rfl
  cases c <;> simp [Call.map, CommandGroup.map_id, IfFragments.map_id, ForFragments.map_id,
    CaseFragments.map_id, GuardBodyPairGroup.map_id, ComplexWordKind.map_id, hr, ha,
    List.map_eq_self hv, List.map_eq_self hw]

theorem Method.mapRet_id {T : BTypes} (m : Method) (x : m.Ret T) : m.mapRet (BMap.id T) x = x := by
  cases m <;> simp [Method.mapRet, CommandGroup.map_id, IfFragments.map_id, ForFragments.map_id,
    CaseFragments.map_id, GuardBodyPairGroup.map_id]

theorem Call.heq_call {B : Builder} {c c' : Call B.toBTypes} (h : c = c') (b : B.State) :
    HEq (B.call c b) (B.call c' b) := by subst h; rfl

theorem Call.mapRet_id {T : BTypes} (c : Call T) (x : c.Ret) : HEq (c.mapRet (BMap.id T) x) x := by
  cases c <;> rfl

theorem BOut.rel_of_heq {ε α β σ : Type} (hab : α = β) (f : α → β) (hf : ∀ x, HEq (f x) x)
    {p : BOut ε α × σ} {q : BOut ε β × σ} (h : HEq q p) :
    BOut.Rel False False _root_.id f (fun x y => x = y) p q := by
  subst hab
  cases h
  obtain ⟨o, s⟩ := p
  cases o with
  | ok a => exact ⟨(eq_of_heq (hf a)).symm, rfl⟩
  | err e => exact .inr ⟨s, rfl, rfl⟩
  | panic => exact .inr ⟨s, rfl, rfl⟩

/-- The identity of a builder (no code). -/
@[reducible] def Hom.id (B : Builder) : Hom B B where
  toBMap := BMap.id B.toBTypes
  st b b' := b = b'
  esc := False
  call := by
    rintro c b _ rfl
    exact BOut.rel_of_heq (by rw [Call.map_id c]) _ (Call.mapRet_id c)
      (Call.heq_call (Call.map_id c) b)

/-- The parser's state (parse.rs:361-365) with its stream seen as a list of positioned tokens (no code: an
abstraction used in the proofs). -/
def PSt.abs {B : Builder} (s : PSt CIter B) : PSt AIter B := ⟨s.it.1.abs, s.b⟩

/-- Running a method on the code's stream is running it on the list of tokens. -/
theorem Method.run_abs {B : Builder} (m : Method) (s : PSt CIter B) :
    m.run s.abs = ((m.run s).1, (m.run s).2.abs) := by
  have h := rel_method cSim (Hom.id B) m
  unfold Rel at h
  have h := h s s.abs ⟨rfl, rfl⟩
  have key : ∀ s1 : PSt CIter B, ∀ s2 : PSt AIter B, SR cSim (Hom.id B) s1 s2 → s2 = s1.abs := by
    rintro ⟨i1, b1⟩ ⟨i2, b2⟩ ⟨h1, h2⟩
    cases h1; cases h2; rfl
  generalize m.run s = z at h
  generalize m.run s.abs = z' at h
  obtain ⟨r, s1⟩ := z
  obtain ⟨r', s1'⟩ := z'
  cases r with
  | panic n =>
    rcases h with h | ⟨s2, h, h2⟩
    · exact h.1.elim
    · cases h; simp [key _ _ h2]
  | ok a =>
    cases r' <;> first | exact h.elim | skip
    obtain ⟨h1, h2⟩ := h
    simp [key _ _ h2, h1, Method.mapRet_id]
  | err e =>
    rcases h with h | ⟨s2, h, h2⟩
    · exact h.1.elim
    · cases h; simp [key _ _ h2, ParseError.map_id]
  | fuel =>
    rcases h with h | ⟨s2, h, h2⟩
    · exact h.elim
    · cases h; simp [key _ _ h2]

end Conch
