import Verif.CallOrder
import Verif.PropsGram
/-!
# C58: the builder is called bottom-up, in source order, and every value is used exactly once
-/
namespace Conch
open Spec Gram

section
variable {B : Builder}

theorem Spec.Postfix.trans {st st' st'' : List (Val B.toBTypes)} {es es' : List (Event B)} (h : Postfix st es st')
    (h' : Postfix st' es' st'') : Postfix st (es ++ es') st'' := by
  induction h with
  | done => exact h'
  | call c a _ ih => exact .call c a (ih h')

theorem Spec.Postfix.frame {st st' : List (Val B.toBTypes)} {es : List (Event B)} (x : List (Val B.toBTypes))
    (h : Postfix st es st') : Postfix (x ++ st) es (x ++ st') := by
  induction h with
  | done => exact .done
  | call c a _ ih => rw [← List.append_assoc] at *; exact .call c a ih

/-- Between `b` and `b'` the values `v` were made. -/
def Made (b b' : (Logged B).State) (v : List (Val B.toBTypes)) : Prop :=
  ∃ es, b'.1 = b.1 ++ es ∧ Postfix [] es v

theorem Made.none {b : (Logged B).State} : Made b b [] := ⟨[], by simp, .done⟩

theorem Made.both {b b' b'' : (Logged B).State} {u v : List (Val B.toBTypes)} (h : Made b b' u)
    (h' : Made b' b'' v) : Made b b'' (u ++ v) := by
  obtain ⟨es, e, p⟩ := h
  obtain ⟨es', e', p'⟩ := h'
  refine ⟨es ++ es', by rw [e', e, List.append_assoc], p.trans ?_⟩
  simpa using p'.frame u

theorem Made.call {b b' b'' : (Logged B).State} {v : List (Val B.toBTypes)} {c : Call B.toBTypes} {a : c.Ret}
    (h : Made b b' v) (hc : Gram.Calls (B := Logged B) c b' a b'') (e : v = args c) : Made b b'' (result c a) := by
  subst e
  obtain ⟨es, e, p⟩ := h
  have h1 := congrArg Prod.fst hc
  have h2 := congrArg (fun x => x.2.1) hc
  refine ⟨es ++ [⟨c, .ok a⟩], ?_, p.trans ?_⟩
  · rw [← h2, ← List.append_assoc, ← e]
    exact congrArg (fun o => b'.1 ++ [(⟨c, o⟩ : Event B)]) h1
  · simpa using Postfix.call (st := []) c a .done

theorem Made.eq {b b' : (Logged B).State} {u v : List (Val B.toBTypes)} (h : Made b b' u) (e : u = v) :
    Made b b' v := e ▸ h

/-- The values in what a non-terminal reads. -/
def _root_.Conch.Gram.NT.vals : (n : NT) → n.Res B → List (Val B.toBTypes)
  | .piece, a => (partCmds a).map .command
  | .pieces _, a | .substPieces _, a => (partsCmds a).map .command
  | .rawWord _, a | .substWord, a => (optCmds a).map .command
  | .wordP, a | .word, a => a.toList.map .word
  | .words, a | .patterns, a => a.map .word
  | .interpParts _, a => a.flatMap (fun x => match x with
      | .inl _ => []
      | .inr s => (simpleCmds s).map .command)
  | .interp _, a => (simplesCmds a).map .command
  | .param, a | .curly _, a | .backtick, a => (simpleCmds a).map .command
  | .subshell _, a | .group _, a | .brace, a | .doGroup, a => groupVals a
  | .redirTail _, a | .heredoc _, a => [.redirect a]
  | .redirect, a => returned .redirect a
  | .redirects, a => a.map .redirect
  | .assigns, a => a.1.flatMap assignVals ++ a.2.toList.map .word
  | .args, a => a.flatMap argVals
  | .simple, a | .function, a | .command, a => [.pipeable a]
  | .ifArms, a | .ifCommand, a => ifVals a
  | .loopCommand, a => pairVals a.2
  | .forWords _, a => a.1.toList.flatMap (fun x => x.2.1.map .word)
  | .forCommand, a => forVals a
  | .arms, a => a.1.flatMap armVals
  | .caseCommand, a => caseVals a
  | .compound _, a => [.compound a]
  | .fnStart _, a => a.toList.map .compound
  | .pipelineCmds, a => a.map (fun x => .pipeable x.2)
  | .pipeline, a => [.listable a]
  | .andOrRest, a => a.flatMap (fun x => andOrVals x.2)
  | .andOr, a => [.commandList a]
  | .complete _, a => [.command a]
  | .top, a => a.toList.map .command

theorem optCmds_wordOf {C : Type} (ws : List (WordKind C)) : optCmds (wordOf ws) = partsCmds ws := by
  rcases ws with _ | ⟨w, _ | _⟩ <;> simp [wordOf, optCmds, cmdsIn, partsCmds]

theorem simplesCmds_append {C : Type} (u v : List (SimpleWordKind C)) :
    simplesCmds (u ++ v) = simplesCmds u ++ simplesCmds v := by
  induction u with
  | nil => simp [simplesCmds]
  | cons s u ih => simp [simplesCmds, ih]

theorem simplesCmds_text {C : Type} (s : Str) : simplesCmds (textOf (C := C) s) = [] := by
  unfold textOf; split <;> simp [simplesCmds, simpleCmds]

theorem partsCmds_simples {C : Type} (u : List (SimpleWordKind C)) :
    partsCmds (u.map .Simple) = simplesCmds u := by
  induction u with
  | nil => simp [simplesCmds, partsCmds]
  | cons s u ih => simp [simplesCmds, partsCmds, partCmds, ih]

theorem cmdsIn_here {C : Type} (u : List (SimpleWordKind C)) : cmdsIn (hereWord u) = simplesCmds u := by
  rcases u with _ | ⟨w, _ | ⟨x, u⟩⟩
  · simp [hereWord, cmdsIn, partCmds, simplesCmds, simpleCmds]
  · simp [hereWord, cmdsIn, partCmds, simplesCmds]
  · exact partsCmds_simples (w :: x :: u)

theorem simplesCmds_gather {C : Type} (ps : List (Str ⊕ SimpleWordKind C)) (s : Str) :
    simplesCmds (gather s ps) = ps.flatMap (fun x => match x with
      | .inl _ => []
      | .inr s => simpleCmds s) := by
  induction ps generalizing s with
  | nil => exact simplesCmds_text s
  | cons p ps ih =>
    cases p with
    | inl t => simpa [gather] using ih _
    | inr w => simp [gather, simplesCmds_append, simplesCmds_text, simplesCmds, ih]

theorem cmdsIn_fd {C : Type} {k : ComplexWordKind C} {n : Nat} (h : FdWord k n) : cmdsIn k = [] := by
  obtain ⟨s, h, -⟩ := h
  cases h with
  | single => simp [cmdsIn, partCmds, simpleCmds]
  | @concat ss =>
    rw [cmdsIn]
    clear * -
    induction ss with
    | nil => simp [partsCmds]
    | cons s ss ih => simpa [partsCmds, partCmds, simpleCmds] using ih

theorem special_cmds {C : Type} {t : Token} {w : SimpleWordKind C} (h : (t, w) ∈ specialTokens C) :
    simpleCmds w = [] := by
  simp only [specialTokens, List.mem_cons, Prod.mk.injEq, List.not_mem_nil, or_false] at h
  rcases h with h | h | h | h | h | h <;> rw [h.2, simpleCmds]

theorem substOp_cmds {C : Type} {t : Token} {mk : SubstMk C} (h : (t, mk) ∈ substOps C) (c : Bool)
    (q : DefaultParameter) (w : Option (ComplexWordKind C)) : substCmds (mk c q w) = optCmds w := by
  simp only [substOps, List.mem_cons, Prod.mk.injEq, List.not_mem_nil, or_false] at h
  rcases h with h | h | h | h <;> rw [h.2, substCmds]

theorem pathOp_vals {T : BTypes} {t : Token} {mk : Option Nat → T.Word → RedirectKind T.Word}
    (h : (t, mk) ∈ pathOps T.Word) (fd : Option Nat) (w : T.Word) : redirVals (T := T) (mk fd w) = [.word w] := by
  simp only [pathOps, List.mem_cons, Prod.mk.injEq, List.not_mem_nil, or_false] at h
  rcases h with h | h | h | h | h <;> rw [h.2, redirVals]

theorem dupOp_vals {T : BTypes} {t : Token} {mk : Option Nat → T.Word → RedirectKind T.Word}
    (h : (t, mk) ∈ dupOps T.Word) (fd : Option Nat) (w : T.Word) : redirVals (T := T) (mk fd w) = [.word w] := by
  simp only [dupOps, List.mem_cons, Prod.mk.injEq, List.not_mem_nil, or_false] at h
  rcases h with h | h <;> rw [h.2, redirVals]

theorem reads_made {n : NT} {b b' : (Logged B).State} {l r : List Token} {a : n.Res (Logged B)}
    (h : Reads (B := Logged B) n b l a r b') : Made b b' (NT.vals (B := B) n a) := by
  induction h with
  | literal | name | text | escaped | singleQuoted => exact Made.none.eq (by simp [NT.vals, partCmds, simpleCmds])
  | special h => exact Made.none.eq (by simp [NT.vals, partCmds, special_cmds h])
  | doubleQuoted _ ih => exact ih.eq (by simp [NT.vals, partCmds])
  | pieceBacktick _ ih | pieceParam _ ih => exact ih.eq (by simp [NT.vals, partCmds])
  | endWord | endCurly | endEscaped | endBackslash => exact Made.none.eq (by simp [NT.vals, partsCmds])
  | consPiece _ _ _ ih1 ih2 => exact (ih1.both ih2).eq (by simp [NT.vals, partsCmds])
  | noWord => exact Made.none.eq (by simp [NT.vals, optCmds])
  | someWord _ _ _ ih => exact ih.eq (by simp [NT.vals, optCmds_wordOf])
  | wordPSome _ hc ih => exact ih.call hc rfl
  | wordPNone _ ih => exact ih
  | word _ _ ih => exact ih
  | wordsNil _ ih => exact ih
  | wordsCons _ _ ih1 ih2 => exact (ih1.both ih2)
  | interpEnd | interpEof => exact Made.none
  | interpParam _ _ _ ih1 ih2 | interpBacktick _ _ _ ih1 ih2 => exact (ih1.both ih2).eq (by simp [NT.vals])
  | interpEscaped _ _ _ ih => exact ih.eq (by simp [NT.vals, simpleCmds])
  | interpBackslash _ _ _ _ ih | interpText _ _ _ _ ih => exact ih.eq (by simp [NT.vals])
  | @interp b d l ps r b' _ ih =>
    refine ih.eq ?_
    simp only [NT.vals, simplesCmds_gather, List.map_flatMap]
    congr 1; funext x; cases x <;> rfl
  | positional | parameter | loneDollar | arithmetic | noArithmetic | curlyEnd | curlyColonEnd | curlyLen
  | curlyLenSpecial => exact Made.none.eq (by simp [NT.vals, simpleCmds, substCmds])
  | commandSubst _ _ ih => exact ih.eq (by simp [NT.vals, simpleCmds, substCmds, groupVals])
  | braced _ _ ih => exact ih
  | curlyOp h _ _ ih => exact ih.eq (by simp [NT.vals, simpleCmds, substOp_cmds h])
  | curlyColonOp h _ ih => exact ih.eq (by simp [NT.vals, simpleCmds, substOp_cmds h])
  | curlyPercent _ _ ih | curlyPercent2 _ ih | curlyPound _ _ _ ih | curlyPound2 _ ih =>
    exact ih.eq (by simp [NT.vals, simpleCmds, substCmds])
  | substEnd => exact Made.none.eq (by simp [NT.vals, partsCmds])
  | substDelim _ _ ih | substPound _ ih | substEscaped _ ih | substDropped _ ih =>
    exact ih.eq (by simp [NT.vals, partsCmds, partCmds, simpleCmds])
  | substPiece _ _ _ _ ih1 ih2 => exact (ih1.both ih2).eq (by simp [NT.vals, partsCmds])
  | substWord _ ih => exact ih.eq (by simp [NT.vals, optCmds_wordOf])
  | backtick _ _ ih => exact ih.eq (by simp [NT.vals, simpleCmds, groupVals])
  | subshell _ _ ih => exact ih
  | groupEnd => exact Made.none
  | groupCons _ _ _ _ _ ih1 ih2 => exact (ih1.both ih2).eq (by simp [NT.vals, groupVals])
  | brace _ _ _ _ _ _ ih | doGroup _ _ _ _ ih => exact ih
  | redirPath h _ _ hc hd ih => exact (ih.call hc rfl).call hd (pathOp_vals h _ _).symm
  | redirDupDash h _ _ hc hd =>
    exact (Made.none.call hc (by simp [args, cmdsIn, partCmds, simpleCmds])).call hd (dupOp_vals h _ _).symm
  | redirDup h _ _ _ _ hc hd ih => exact (ih.call hc rfl).call hd (dupOp_vals h _ _).symm
  | redirHeredoc _ ih => exact ih
  | heredocQuoted _ _ _ _ _ _ _ hc hd =>
    exact (Made.none.call hc (by simp [args, cmdsIn, partCmds, simpleCmds])).call hd rfl
  | heredoc _ _ _ _ _ _ _ _ hc hd ih =>
    exact (ih.call hc (by simp [NT.vals, args, cmdsIn_here])).call hd rfl
  | redirect _ _ _ ih1 ih2 => exact ih1.both ih2
  | redirectFd _ h _ _ ih1 ih2 =>
    exact ((ih1.eq (v := []) (by simp [NT.vals, optCmds, cmdsIn_fd h])).both ih2)
  | redirectWord _ _ hc ih => exact ih.call hc rfl
  | noRedirect _ _ ih => exact ih
  | redirectsNil _ _ ih => exact ih
  | redirectsCons _ _ _ ih1 ih2 => exact ih1.both ih2
  | assignEmpty _ _ ih => exact ih
  | assign _ _ _ _ ih1 ih2 => exact (ih1.both ih2).eq (by simp [NT.vals, assignVals])
  | assignsRedirect _ _ _ _ ih1 ih2 => exact (ih1.both ih2)
  | assignsWord _ _ _ ih | assignsEnd _ _ _ ih => exact ih
  | argsRedirect _ _ ih1 ih2 | argsWord _ _ ih1 ih2 => exact ih1.both ih2
  | argsEnd _ ih => exact ih
  | @simple b l vs e l' b' as r b'' c b3 _ _ _ hc ih1 ih2 =>
    refine (ih1.both ih2).call hc ?_
    cases e <;> simp [NT.vals, args, argVals]
  | ifElif _ _ _ _ _ _ _ ih1 ih2 ih3 =>
    exact ((ih1.both ih2).both ih3).eq (by simp [NT.vals, ifVals, pairVals])
  | ifElse _ _ _ _ _ _ _ _ _ ih1 ih2 ih3 =>
    exact ((ih1.both ih2).both ih3).eq (by simp [NT.vals, ifVals, pairVals])
  | ifFi _ _ _ _ _ _ ih1 ih2 => exact (ih1.both ih2).eq (by simp [NT.vals, ifVals, pairVals])
  | ifCommand _ _ ih => exact ih
  | loopCommand _ _ _ _ ih1 ih2 => exact ih1.both ih2
  | forIn _ _ _ _ _ ih => exact ih.eq (by simp [NT.vals])
  | forSemi | forDo => exact Made.none
  | forCommand _ _ _ _ _ _ ih1 ih2 => exact ih1.both ih2
  | patternLast _ ih => exact ih
  | patternCons _ _ ih1 ih2 => exact ih1.both ih2
  | armsEnd => exact Made.none
  | armsCons _ _ _ _ _ _ _ _ ih1 ih2 ih3 => exact ((ih1.both ih2).both ih3)
  | armsLast _ _ _ _ _ _ _ ih1 ih2 => exact (ih1.both ih2).eq (by simp [NT.vals, armVals])
  | caseCommand _ _ _ _ _ _ _ _ ih1 ih2 => exact ih1.both ih2
  | compoundIf _ _ hc ih1 ih2 | compoundFor _ _ hc ih1 ih2 | compoundCase _ _ hc ih1 ih2
  | compoundBrace _ _ hc ih1 ih2 | compoundSubshell _ _ hc ih1 ih2 | compoundLoop _ _ _ hc ih1 ih2 =>
    exact (ih1.both ih2).call hc rfl
  | fnParens | fnNewline | fnWsParens | fnWs => exact Made.none
  | fnEmpty _ _ ih => exact ih
  | fnSubshell _ _ _ hc ih => exact ih.call hc (by simp [NT.vals, args])
  | function _ _ _ _ _ _ hc ih1 ih2 => exact (ih1.both ih2).call hc rfl
  | functionSubshell _ _ _ hc ih => exact ih.call hc rfl
  | commandCompound _ _ _ hc ih => exact ih.call hc rfl
  | commandFunction _ _ _ _ ih | commandSimple _ _ _ _ ih => exact ih
  | pipeLast _ _ _ ih => exact ih
  | pipeCons _ _ _ _ ih1 ih2 => exact ih1.both ih2
  | pipeline _ _ _ hc ih => exact ih.call hc rfl
  | andOrEnd => exact Made.none
  | andOrAnd _ _ _ _ ih1 ih2 | andOrOr _ _ _ _ ih1 ih2 => exact ih1.both ih2
  | andOr _ _ hc ih1 ih2 => exact (ih1.both ih2).call hc rfl
  | complete _ _ hc ih => exact ih.call hc rfl
  | topCommand _ _ _ ih => exact ih
  | topNone => exact Made.none
  | topComments _ _ hc => exact Made.none.call hc rfl

/-- **C58.** Whenever a method succeeds, the builder calls it made are in postfix order: each call gets exactly
the latest values that no earlier call got, in source order; what is left is what the method returns, in source
order. -/
theorem C58_bottom_up (m : Method) (hm : m.InGrammar) (it : CIter) (b : B.State) (log : List (Event B))
    (a : m.Ret B.toBTypes)
    (h : (m.run (⟨it, (log, b)⟩ : PSt CIter (Logged B))).1 = .ok a) :
    ∃ es, (m.run (⟨it, (log, b)⟩ : PSt CIter (Logged B))).2.b.1 = log ++ es ∧ Postfix [] es (returned m a) := by
  generalize hs : (⟨it, (log, b)⟩ : PSt CIter (Logged B)) = s at h ⊢
  have hd : Derives m s.b s.tokens a _ _ := C31_parser_within_grammar m hm s a _ _ ⟨h, rfl, rfl⟩
  have key : Made (B := B) s.b (m.run s).2.b (returned m a) := by
    generalize (m.run s).2.b = b' at hd
    generalize s.b = b0 at hd ⊢
    clear h hs
    cases m with
    | redirect => exact reads_made hd
    | backtickedCommandSubstitution | parameter =>
      obtain ⟨w, b1, h1, h2⟩ := hd
      exact (reads_made h1).call h2 (by simp [NT.vals, args, cmdsIn, partCmds])
    | compoundCommand =>
      obtain ⟨l', kw, -, -, h1⟩ := hd
      exact reads_made h1
    | maybeFunctionDeclaration =>
      obtain ⟨l', -, ⟨-, c, rfl, h1⟩ | ⟨-, rfl, -, rfl⟩⟩ := hd
      · exact reads_made h1
      · exact Made.none
    | commandGroup cfg => exact reads_made hd.1
    | skipWhitespace | linebreak | newline =>
      obtain ⟨-, rfl⟩ := hd
      exact Made.none
    | peekReservedToken | peekReservedWord | reservedToken | reservedWord | arithmeticSubstitution => exact hd.elim
    | _ => exact reads_made hd
  obtain ⟨es, h1, h2⟩ := key
  subst hs
  exact ⟨es, h1, h2⟩

/-- What a call returned, if it succeeded. -/
def Spec.made (ev : Event B) : List (Val B.toBTypes) :=
  match ev with
  | ⟨c, .ok a⟩ => result c a
  | ⟨_, _⟩ => []

theorem Spec.Postfix.perm {st st' : List (Val B.toBTypes)} {es : List (Event B)} (h : Postfix st es st') :
    (st ++ es.flatMap made).Perm (st' ++ es.flatMap (fun ev => args ev.call)) := by
  induction h with
  | done => simp
  | @call st es st' c a _ ih =>
    have : (st ++ (result c a ++ es.flatMap made)).Perm (st' ++ es.flatMap (fun ev => args ev.call)) := by
      simpa using ih
    have h2 := (this.append_left (args c))
    simp only [List.flatMap_cons, made]
    refine List.Perm.trans ?_ (h2.trans ?_)
    · rw [← List.append_assoc (args c) st]
      exact List.perm_append_comm.append_right _
    · rw [← List.append_assoc, ← List.append_assoc]
      exact List.perm_append_comm.append_right _

/-- **C58.** So every value the builder returned is used exactly once: the results of all calls are, each as often
as it was returned, the arguments of all calls together with what the method returns. -/
theorem C58_used_once (m : Method) (hm : m.InGrammar) (it : CIter) (b : B.State) (a : m.Ret B.toBTypes)
    (h : (m.run (⟨it, ([], b)⟩ : PSt CIter (Logged B))).1 = .ok a) :
    let es := (m.run (⟨it, ([], b)⟩ : PSt CIter (Logged B))).2.b.1
    (es.flatMap made).Perm (returned m a ++ es.flatMap (fun ev => args ev.call)) := by
  obtain ⟨es, h1, h2⟩ := C58_bottom_up m hm it b [] a h
  rw [h1]
  simpa using h2.perm

theorem Spec.Postfix.grows {st st' : List (Val B.toBTypes)} {es : List (Event B)} (h : Postfix st es st')
    (hne : st ≠ [] ∨ ∃ ev ∈ es, ∀ cs, ev.call ≠ .comments cs) : st' ≠ [] := by
  induction h with
  | @done st =>
    rcases hne with h | ⟨_, h, _⟩
    · exact h
    · simp at h
  | @call st es st' c a _ ih =>
    by_cases hc : ∃ cs, c = .comments cs
    · obtain ⟨cs, rfl⟩ := hc
      apply ih
      rcases hne with h | ⟨ev, hev, h⟩
      · exact .inl h
      · rcases List.mem_cons.1 hev with rfl | hev
        · exact absurd rfl (h cs)
        · exact .inr ⟨ev, hev, h⟩
    · apply ih
      refine .inl ?_
      cases c <;> simp [result] at hc ⊢

/-- **C58.** If no command is left, the builder was told of comments only. -/
theorem C58_no_command (it : CIter) (b : B.State)
    (h : (Method.completeCommand.run (⟨it, ([], b)⟩ : PSt CIter (Logged B))).1 = .ok none) :
    ∀ ev ∈ (Method.completeCommand.run (⟨it, ([], b)⟩ : PSt CIter (Logged B))).2.b.1,
      ∃ cs, ev.call = .comments cs := by
  obtain ⟨es, h1, h2⟩ := C58_bottom_up .completeCommand trivial it b [] none h
  rw [h1]
  intro ev hev
  by_contra hc
  exact h2.grows (.inr ⟨ev, hev, fun cs e => hc ⟨cs, e⟩⟩) rfl

end

/-! ## A case -/

/-- A builder whose values are numbers, in the order in which they are made. -/
def counting : Builder where
  Command := Nat
  CommandList := Nat
  ListableCommand := Nat
  PipeableCommand := Nat
  CompoundCommand := Nat
  Word := Nat
  Redirect := Nat
  Error := Empty
  State := Nat
  call c n := match c with
    | .comments _ => (.ok (), n)
    | .completeCommand .. => (.ok n, n + 1)
    | .andOrList .. => (.ok n, n + 1)
    | .pipeline .. => (.ok n, n + 1)
    | .simpleCommand .. => (.ok n, n + 1)
    | .braceGroup .. => (.ok n, n + 1)
    | .subshell .. => (.ok n, n + 1)
    | .loopCommand .. => (.ok n, n + 1)
    | .ifCommand .. => (.ok n, n + 1)
    | .forCommand .. => (.ok n, n + 1)
    | .caseCommand .. => (.ok n, n + 1)
    | .compoundCommandIntoPipeable .. => (.ok n, n + 1)
    | .functionDeclaration .. => (.ok n, n + 1)
    | .word .. => (.ok n, n + 1)
    | .redirect .. => (.ok n, n + 1)

/-- The numbers in the arguments of a call. -/
def numbers (c : Call counting.toBTypes) : List Nat :=
  (args c).map fun v => match v with
    | .command n | .commandList n | .listable n | .pipeable n | .compound n | .word n | .redirect n => n

/-- The argument numbers of the calls for the first command of the text. -/
def callArgs (src : List Char) : Option (List (List Nat)) :=
  let r := Method.completeCommand.run
    (PSt.new (I := CIter) (B := Logged counting) (lex ascii src) ([], (0 : Nat)))
  match r.1 with
  | .ok (some _) => some (r.2.b.1.map fun ev => numbers ev.call)
  | _ => none

/-- A case: `a` is number 0, `$(b)` is number 6 and holds the command 5, `>c` is number 8; the `if` command gets
its guard 12, its body 19, its `else` part 24 and its redirection 26. -/
theorem C58_case : callArgs "if a $(b) >c; then d | e; else f; fi 2>&1 & x".toList = some
    [[], [], [1], [2], [3], [4], [5], [], [7], [0, 6, 8], [9], [10], [11], [], [13], [], [15], [14, 16], [17], [18],
      [], [20], [21], [22], [23], [], [25], [12, 19, 24, 26], [27], [28], [29], [30]] := by
  decide +kernel

end Conch
