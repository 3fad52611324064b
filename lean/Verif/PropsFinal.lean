import Verif.FinalRun
/-!
# C50: an error that leaves tokens, or that names a token, is final

An interactive program that reads a script line by line has to decide, after an error, whether to ask for
another line or to report the error.
-/
namespace Conch
open Spec

/-! ## Specification -/

/-- Parsing commands one after the other ends in the error `e`; the parser is then in the state `s'`. -/
inductive Spec.FailsWith {B : Builder} : PSt CIter B → ParseError B.Error → PSt CIter B → Prop
  | here {s e s'} : Method.completeCommand.run s = (.err e, s') → FailsWith s e s'
  | later {s c s1 e s'} : Method.completeCommand.run s = (.ok (some c), s1) → FailsWith s1 e s' → FailsWith s e s'

/-- Errors about a token that was read. -/
def Spec.Definite {E : Type} : ParseError E → Prop
  | .Unexpected .. | .BadIdent .. | .BadSubst .. => True
  | _ => False

/-! ## Proof -/

namespace Final

/-- The parser without its builder. -/
def bare {B : Builder} (s : PSt CIter B) : PSt CIter EmptyBuilder := ⟨s.it, ()⟩

theorem ok_bare {B : Builder} {s s' : PSt CIter B} {a : Option B.Command}
    (h : Method.completeCommand.run s = (.ok a, s')) :
    ∃ a', Method.completeCommand.run (bare s) = (.ok a', bare s') ∧ a'.isSome = a.isSome := by
  obtain ⟨h1, h2⟩ := C19_success_with_any_builder EmptyBuilder.neverFails .completeCommand s.it s'.it s.b s'.b () a h
  show ∃ a', Method.completeCommand.run (⟨s.it, ()⟩ : PSt CIter EmptyBuilder) = _ ∧ _
  generalize Method.completeCommand.run (⟨s.it, ()⟩ : PSt CIter EmptyBuilder) = z at h1 h2
  obtain ⟨r, ⟨it, ⟨⟩⟩⟩ := z
  cases r with
  | ok a' =>
    simp only [shape] at h1
    injection h1 with h1
    simp only at h2
    subst h2
    refine ⟨a', rfl, ?_⟩
    have := congrArg Option.isSome h1
    simpa [Method.mapRet] using this
  | err e => simp [shape] at h1
  | panic n => simp [shape] at h1
  | fuel => simp [shape] at h1

theorem err_bare {B : Builder} {s s' : PSt CIter B} {e : ParseError B.Error}
    (h : Method.completeCommand.run s = (.err e, s')) (hc : ¬ ∃ x, e = .Custom x) :
    ∃ e', Method.completeCommand.run (bare s) = (.err e', bare s') ∧ (Definite e → ¬ Soft e') := by
  obtain ⟨h1, h2⟩ := (C19_failure_with_any_builder EmptyBuilder.neverFails .completeCommand s.it s'.it s.b s'.b () e h).resolve_left hc
  show ∃ e', Method.completeCommand.run (⟨s.it, ()⟩ : PSt CIter EmptyBuilder) = _ ∧ _
  generalize Method.completeCommand.run (⟨s.it, ()⟩ : PSt CIter EmptyBuilder) = z at h1 h2
  obtain ⟨r, ⟨it, ⟨⟩⟩⟩ := z
  cases r with
  | ok a' => simp [shape] at h1
  | err e' =>
    simp only [shape] at h1
    injection h1 with h1
    simp only at h2
    subst h2
    refine ⟨e', rfl, ?_⟩
    cases e <;> cases e' <;> simp [ParseError.map] at h1 <;> simp [Definite, Soft]
  | panic n => simp [shape] at h1
  | fuel => simp [shape] at h1

theorem ends_bare {B : Builder} {s s' : PSt CIter B} (h : ParsedToEnd s s') : ParsedToEnd (bare s) (bare s') := by
  induction h with
  | none h =>
    obtain ⟨a, h1, h2⟩ := ok_bare h
    cases a with
    | none => exact .none h1
    | some a => simp at h2
  | some h _ ih =>
    obtain ⟨a, h1, h2⟩ := ok_bare h
    cases a with
    | none => simp at h2
    | some a => exact .some h1 ih

theorem fails_bare {B : Builder} {s s' : PSt CIter B} {e} (h : FailsWith s e s') (hc : ¬ ∃ x, e = .Custom x) :
    ∃ e', FailsWith (bare s) e' (bare s') ∧ (Definite e → ¬ Soft e') := by
  induction h with
  | here h =>
    obtain ⟨e', h1, h2⟩ := err_bare h hc
    exact ⟨e', .here h1, h2⟩
  | later h _ ih =>
    obtain ⟨a, h1, h2⟩ := ok_bare h
    obtain ⟨e', h3, h4⟩ := ih hc
    cases a with
    | none => simp at h2
    | some a => exact ⟨e', .later h1 h3, h4⟩

theorem ex_complete : Ex (Method.completeCommand.run : Q (Option Unit)) Method.completeCommand.run :=
  ex_run fun _ _ => ex_completeCommand

theorem abs_ok {s s' : PSt CIter EmptyBuilder} {r} (h : Method.completeCommand.run s = (r, s')) :
    Method.completeCommand.run s.abs = (r, s'.abs) := by
  rw [Method.run_abs, h]

theorem dead_fails {s s' : PSt CIter EmptyBuilder} {e} (h : FailsWith s e s') (hd : Dead s.abs) : Dead s'.abs ∧ Soft e := by
  induction h with
  | here h =>
    have := ex_complete.dead _ hd
    rw [abs_ok h] at this
    exact this
  | later h _ ih =>
    have := ex_complete.dead _ hd
    rw [abs_ok h] at this
    exact ih this

theorem live_fails {s1 s1' : PSt CIter EmptyBuilder} {e} (h : FailsWith s1 e s1') :
    ∀ s2 s2' : PSt CIter EmptyBuilder, Live s1.abs s2.abs → ParsedToEnd s2 s2' → Dead s1'.abs ∧ Soft e := by
  induction h with
  | here h =>
    intro s2 s2' hl hp
    have key : ∀ a s3, Method.completeCommand.run s2 = (.ok a, s3) → _ := fun a s3 h2 =>
      ex_complete.live _ _ _ _ hl (abs_ok h2)
    rw [abs_ok h] at key
    cases hp with
    | none h2 => exact key _ _ h2
    | some h2 _ => exact key _ _ h2
  | later h hf ih =>
    intro s2 s2' hl hp
    have key : ∀ a s3, Method.completeCommand.run s2 = (.ok a, s3) → _ := fun a s3 h2 =>
      ex_complete.live _ _ _ _ hl (abs_ok h2)
    rw [abs_ok h] at key
    cases hp with
    | none h2 =>
      rcases key _ _ h2 with ⟨h3, -⟩ | h3
      · cases h3
      · exact dead_fails hf h3
    | some h2 h3 =>
      rcases key _ _ h2 with ⟨-, h4⟩ | h4
      · exact ih _ _ h4 h3
      · exact dead_fails hf h4

end Final
open Final

/-! ## Theorems -/

/-- **C50.** Parse complete lines of a script. If that fails with an error about a token that was read, or
with any error that is not the builder's own while tokens are left, then the error is final: no matter what follows the
lines, the script is not accepted, with any builder. -/
theorem C50_error_is_final {B C : Builder} (cc : CharClass) (hs : cc.Sane)
    (p q : Str) (b : B.State) (c : C.State) (e : ParseError B.Error) (s : PSt CIter B)
    (hf : FailsWith (PSt.new (lex cc (p ++ ['\n'])) b) e s) (h : (s.rest ≠ [] ∧ ¬ ∃ x, e = .Custom x) ∨ Definite e) :
    ¬ ∃ s' : PSt CIter C, ParsedToEnd (PSt.new (lex cc (p ++ '\n' :: q)) c) s' := by
  rintro ⟨s', hp⟩
  have hc : ¬ ∃ x, e = .Custom x := by
    rcases h with h | h
    · exact h.2
    · rintro ⟨x, rfl⟩
      exact h
  obtain ⟨e', h1, h2⟩ := fails_bare hf hc
  have h3 := ends_bare hp
  have hl : Live (bare (PSt.new (lex cc (p ++ ['\n'])) b : PSt CIter B)).abs
      (bare (PSt.new (lex cc (p ++ '\n' :: q)) c : PSt CIter C)).abs := by
    have e1 : (bare (PSt.new (lex cc (p ++ ['\n'])) b : PSt CIter B)).abs.it.rest =
        annotate .new (lex cc p ++ [.Newline]) := by
      have : (PSt.new (lex cc (p ++ ['\n'])) b : PSt CIter B).it.1.abs = AIter.ofTokens (lex cc (p ++ ['\n'])) := cSim.ofTokens _
      show (PSt.new (lex cc (p ++ ['\n'])) b : PSt CIter B).it.1.abs.rest = _
      rw [this, show lex cc (p ++ ['\n']) = lex cc p ++ [.Newline] from lex_line hs p []]
      rfl
    have e2 : (bare (PSt.new (lex cc (p ++ '\n' :: q)) c : PSt CIter C)).abs.it.rest =
        annotate .new ((lex cc p ++ [.Newline]) ++ lex cc q) := by
      have : (PSt.new (lex cc (p ++ '\n' :: q)) c : PSt CIter C).it.1.abs = AIter.ofTokens (lex cc (p ++ '\n' :: q)) := cSim.ofTokens _
      show (PSt.new (lex cc (p ++ '\n' :: q)) c : PSt CIter C).it.1.abs.rest = _
      rw [this, show lex cc (p ++ '\n' :: q) = (lex cc p ++ [.Newline]) ++ lex cc q by rw [lex_line hs p q]; simp]
      rfl
    unfold Live
    rw [e1, e2]
    obtain ⟨p', h'⟩ := Final.annotate_append .new (lex cc p ++ [.Newline]) (lex cc q)
    exact ⟨⟨_, h'⟩, annotate_whole ⟨_, rfl⟩⟩
  obtain ⟨h4, h5⟩ := live_fails h1 _ _ hl h3
  unfold Dead at h4
  rcases h with h | h
  · exact h.1 h4
  · exact h2 h h5

/-- Whether parsing a script ends in an error, which one, and whether tokens are left. -/
def failure : Nat → PSt CIter EmptyBuilder → Option (ParseError Empty × Bool)
  | 0, _ => none
  | n + 1, s =>
    match Method.completeCommand.run s with
    | (.ok (some _), s') => failure n s'
    | (.err e, s') => some (e, s'.rest.isEmpty)
    | _ => none

theorem failure_sound {n : Nat} {s : PSt CIter EmptyBuilder} {e b} (h : failure n s = some (e, b)) :
    ∃ s', FailsWith s e s' ∧ s'.rest.isEmpty = b := by
  induction n generalizing s with
  | zero => cases h
  | succ n ih =>
    unfold failure at h
    split at h
    · rename_i h'
      obtain ⟨s', h1, h2⟩ := ih h
      exact ⟨s', .later h' h1, h2⟩
    · rename_i h'
      cases h
      exact ⟨_, .here h', rfl⟩
    · cases h

/-- Whether a script is accepted. -/
def accepted (src : Str) : Bool :=
  (runAll 20 (PSt.new (lex ascii src) () : PSt CIter EmptyBuilder)).isSome

theorem accepted_sound {src : Str} (h : accepted src = true) :
    ∃ s', ParsedToEnd (PSt.new (lex ascii src) () : PSt CIter EmptyBuilder) s' := by
  unfold accepted at h
  cases h1 : runAll 20 (PSt.new (lex ascii src) () : PSt CIter EmptyBuilder) with
  | none => rw [h1] at h; cases h
  | some s' => exact ⟨s', runAll_sound h1⟩

/-- The kind of the failure of a script. -/
def failureKind (src : Str) : Option (String × Bool) :=
  (failure 20 (PSt.new (lex ascii src) ())).map fun x => (match x.1 with
    | .BadFd .. => "BadFd"
    | .BadIdent .. => "BadIdent"
    | .BadSubst .. => "BadSubst"
    | .Unmatched .. => "Unmatched"
    | .IncompleteCmd .. => "IncompleteCmd"
    | .Unexpected .. => "Unexpected"
    | .UnexpectedEOF => "UnexpectedEOF"
    | .Custom _ => "Custom", x.2)

theorem final_of_failure {p q : Str} {k : String} (h : failureKind (p ++ ['\n']) = some (k, false)) :
    ¬ ∃ s' : PSt CIter DefaultBuilder, ParsedToEnd (PSt.new (lex ascii (p ++ '\n' :: q)) ()) s' := by
  unfold failureKind at h
  cases h1 : failure 20 (PSt.new (lex ascii (p ++ ['\n'])) ()) with
  | none => rw [h1] at h; cases h
  | some x =>
    rw [h1] at h
    obtain ⟨s', h2, h3⟩ := failure_sound h1
    have h4 : x.2 = false := by
      have := congrArg (Option.map (·.2)) h
      simpa only [Option.map_some, Option.some.injEq] using this
    refine C50_error_is_final (C := DefaultBuilder) ascii ascii_sane p q () () x.1 s' h2 (.inl ⟨?_, fun ⟨y, _⟩ => nomatch y⟩)
    intro h5
    rw [h5, h4] at h3
    cases h3

/-- The hypotheses are met: an error about a token, and another error with tokens left. -/
example (q : Str) : ¬ ∃ s' : PSt CIter DefaultBuilder, ParsedToEnd (PSt.new (lex ascii ("a\nb )".toList ++ '\n' :: q)) ()) s' :=
  final_of_failure (k := "Unexpected") (by decide +kernel)

example (q : Str) : ¬ ∃ s' : PSt CIter DefaultBuilder, ParsedToEnd (PSt.new (lex ascii ("for x\ny".toList ++ '\n' :: q)) ()) s' :=
  final_of_failure (k := "IncompleteCmd") (by decide +kernel)

/-- **C50, why the condition.** Errors of the other kinds are not final when the tokens are used up: each of
these scripts fails at its end, and is accepted with another line. Among them is a bad file descriptor. -/
theorem C50_other_errors_can_vanish :
    (failureKind "a &&\n".toList = some ("UnexpectedEOF", true) ∧ accepted "a &&\nb\n".toList = true) ∧
    (failureKind "if a\n".toList = some ("IncompleteCmd", true) ∧ accepted "if a\nthen b; fi\n".toList = true) ∧
    (failureKind "echo 'a\n".toList = some ("Unmatched", true) ∧ accepted "echo 'a\n'\n".toList = true) ∧
    (failureKind "{ a; } 1\\\n".toList = some ("BadFd", true) ∧ accepted "{ a; } 1\\\n<x\n".toList = true) := by
  refine ⟨⟨?_, ?_⟩, ⟨?_, ?_⟩, ⟨?_, ?_⟩, ?_, ?_⟩ <;> decide +kernel

/-- **C50, why complete lines.** Without its newline a last word can still grow. -/
theorem C50_needs_complete_lines :
    failureKind "for x i".toList = some ("IncompleteCmd", false) ∧ accepted "for x in y; do z; done\n".toList = true := by
  constructor <;> decide +kernel

/-! ## The iterator -/

theorem fails_of_yields {B : Builder} {it it' : ParserIterator CIter B} {xs e} (h : Yields it xs it') (he : .error e ∈ xs) :
    ∀ s, it.parser = some s → ∃ s', FailsWith s e s' := by
  induction h with
  | nil => simp at he
  | @cons p x p' xs p'' h1 h2 ih =>
    intro s hs
    obtain ⟨pp⟩ := p
    simp only at hs
    subst hs
    unfold ParserIterator.next at h1
    simp only at h1
    split at h1
    · rename_i c s1 h3
      cases h1
      rcases List.mem_cons.1 he with h4 | h4
      · cases h4
      · obtain ⟨s', h5⟩ := ih h4 s1 rfl
        exact ⟨s', .later h3 h5⟩
    · cases h1
    · rename_i e' s1 h3
      cases h1
      rcases List.mem_cons.1 he with h4 | h4
      · cases h4
        exact ⟨s1, .here h3⟩
      · cases h2 with
        | nil => simp at h4
        | cons h5 _ => cases h5
    · cases h1
    · cases h1

theorem ends_of_yields {B : Builder} {it it' it2 : ParserIterator CIter B} {xs} (h : Yields it xs it') (hn : it'.next = (.ok none, it2)) :
    (∀ x ∈ xs, ∃ c, x = .ok c) → ∀ s, it.parser = some s → ∃ s', ParsedToEnd s s' := by
  induction h with
  | @nil p =>
    intro _ s hs
    obtain ⟨pp⟩ := p
    simp only at hs
    subst hs
    unfold ParserIterator.next at hn
    simp only at hn
    split at hn
    · cases hn
    · rename_i s1 h3
      exact ⟨s1, .none h3⟩
    · cases hn
    · cases hn
    · cases hn
  | @cons p x p' xs p'' h1 h2 ih =>
    intro ha s hs
    obtain ⟨pp⟩ := p
    simp only at hs
    subst hs
    unfold ParserIterator.next at h1
    simp only at h1
    split at h1
    · rename_i c s1 h3
      cases h1
      obtain ⟨s', h5⟩ := ih hn (fun x hx => ha x (List.mem_cons_of_mem _ hx)) s1 rfl
      exact ⟨s', .some h3 h5⟩
    · cases h1
    · cases h1
      obtain ⟨c, hc⟩ := ha _ List.mem_cons_self
      cases hc
    · cases h1
    · cases h1

/-- **C50.** The same for the iterator: if it yields an error about a token on some complete lines of a
script, then on no longer script it yields commands only. -/
theorem C50_iterator_error_is_final {B C : Builder} (cc : CharClass) (hs : cc.Sane)
    (p q : Str) (b : B.State) (c : C.State) (xs : List (Except (ParseError B.Error) B.Command)) (it : ParserIterator CIter B)
    (hy : Yields ⟨some (PSt.new (lex cc (p ++ ['\n'])) b)⟩ xs it) (e : ParseError B.Error) (he : .error e ∈ xs) (hd : Definite e) :
    ¬ ∃ (ys : List (Except (ParseError C.Error) C.Command)) (it' it'' : ParserIterator CIter C),
      Yields ⟨some (PSt.new (lex cc (p ++ '\n' :: q)) c)⟩ ys it' ∧ it'.next = (.ok none, it'') ∧ ∀ y ∈ ys, ∃ cmd, y = .ok cmd := by
  rintro ⟨ys, it', it'', h1, h2, h3⟩
  obtain ⟨s, h4⟩ := fails_of_yields hy he _ rfl
  exact C50_error_is_final cc hs p q b c e s h4 (.inr hd) (ends_of_yields h1 h2 h3 _ rfl)

/-- What the iterator yields for a script, with the kinds of the errors. -/
example : ((items 20 (⟨some (parserOf "a; b )\n")⟩ : ParserIterator CIter EmptyBuilder)).1.map fun x => match x with
    | .ok _ => "ok"
    | .error (.Unexpected ..) => "Unexpected"
    | .error _ => "other") = ["ok", "ok", "Unexpected"] := by decide +kernel

end Conch
