import Verif.PropsErr
import Verif.PropsOrder
/-!
# C51: after an error the parser can be used further

`Parser` (unlike `ParserIterator`) may be used after a method returned an error. `History` are the
sequences of calls, each of which returned `Ok` or `Err`. Termination (C13) is for every state; C14, C18, C40,
C41 and C43 are stated for histories.
-/
namespace Conch
open Spec

/-! ## Proof -/

/-- The state after an error. -/
theorem after_err {B : Builder} {m : Method} {s s1 : PSt CIter B} {e} (h : m.run s = (.err e, s1))
    (hh : ∀ x ∈ s.rest, ¬ HeredocOp x.2) :
    s1.it.1.abs.endPos = s.it.1.abs.endPos ∧ s1.rest <:+ s.rest := by
  have ht := tr_method m (basic_inv s.abs)
  unfold Theory.Tr at ht
  rw [Method.run_abs, h] at ht
  refine ht.2.suf.resolve_left ?_
  rintro ⟨t, h1, h2⟩
  obtain ⟨x, hx, rfl⟩ := List.mem_map.1 h1
  exact hh x hx h2

/-- The state after a successful call. -/
theorem after_ok {B : Builder} {m : Method} {s s1 : PSt CIter B} {a} (h : m.run s = (.ok a, s1))
    (hh : ∀ x ∈ s.rest, ¬ HeredocOp x.2) :
    s1.it.1.abs.endPos = s.it.1.abs.endPos ∧ s1.rest <:+ s.rest := by
  have ht := tr_method m (basic_inv s.abs)
  unfold Theory.Tr at ht
  rw [Method.run_abs, h] at ht
  refine ⟨ht.1.endPos, ht.1.suf.resolve_left ?_⟩
  rintro ⟨t, h1, h2⟩
  obtain ⟨x, hx, rfl⟩ := List.mem_map.1 h1
  exact hh x hx h2

theorem History.suffix {B : Builder} {s s' : PSt CIter B} (h : History s s') (hh : ∀ x ∈ s.rest, ¬ HeredocOp x.2) :
    s'.it.1.abs.endPos = s.it.1.abs.endPos ∧ s'.rest <:+ s.rest := by
  induction h with
  | nil => exact ⟨rfl, List.suffix_refl _⟩
  | ok m h _ ih =>
    obtain ⟨h1, h2⟩ := after_ok h hh
    obtain ⟨h3, h4⟩ := ih fun x hx => hh x (h2.subset hx)
    exact ⟨h3.trans h1, h4.trans h2⟩
  | err m h _ ih =>
    obtain ⟨h1, h2⟩ := after_err h hh
    obtain ⟨h3, h4⟩ := ih fun x hx => hh x (h2.subset hx)
    exact ⟨h3.trans h1, h4.trans h2⟩

/-! ## Theorems -/

/-- **C51.** In an input without here-documents, after any calls, failed ones included, the tokens that are left
are the last ones of the input, untouched, and the position of the parser is the one after the tokens before
them. Missing from the full property: here-documents, where it is false
(`C51_error_in_heredoc_loses_script`). -/
theorem C51_rest_is_untouched_partial {B : Builder} (ts : List Token) (b : B.State) (hh : ∀ t ∈ ts, ¬ HeredocOp t)
    (s : PSt CIter B) (hs : History (PSt.new ts b) s) :
    ∃ before, ts = before ++ s.rest.map (·.2) ∧ s.pos = posAfter .new before := by
  have h0 : (PSt.new ts b : PSt CIter B).it.1.abs = AIter.ofTokens ts := cSim.ofTokens _
  have h1 : (PSt.new ts b : PSt CIter B).rest = annotate .new ts := by unfold PSt.rest; rw [h0]; rfl
  obtain ⟨h2, h3⟩ := hs.suffix (by
    rw [h1]
    exact fun x hx => hh _ (annotate_mem hx).1)
  rw [h1] at h3
  rw [h0] at h2
  obtain ⟨xs, h4⟩ := h3
  obtain ⟨a, r, rfl, -, h5⟩ := annotate_split h4.symm
  refine ⟨a, by rw [h5, annotate_toks], ?_⟩
  rw [PSt.pos_eq]
  unfold PSt.rest at h5
  generalize s.it.1.abs = it at *
  obtain ⟨l, e⟩ := it
  simp only at h5 h2
  subst h5
  cases r with
  | nil => rw [List.append_nil] at h2; exact h2
  | cons t r => rfl

/-- **C51** for sources: the text of the tokens that are left is the end of the source, and the position of the parser is that
of this end. -/
theorem C51_rest_of_source_partial {B : Builder} (cc : CharClass) (src : Str) (b : B.State)
    (hh : ∀ t ∈ lex cc src, ¬ HeredocOp t) (s : PSt CIter B) (hs : History (PSt.new (lex cc src) b) s) :
    ∃ pre, src = pre ++ (s.rest.map fun x => x.2.asStr).flatten ∧ s.pos = posOf pre := by
  obtain ⟨a, h1, h2⟩ := C51_rest_is_untouched_partial (lex cc src) b hh s hs
  refine ⟨(a.map Token.asStr).flatten, ?_, ?_⟩
  · rw [← C01_lexer_loses_nothing cc src]
    conv_lhs => rw [h1]
    rw [List.map_append, List.map_map, List.flatten_append]
    rfl
  · rw [h2]
    exact posAfter_posOf _ (fun t ht => lex_nlOk cc src t (by rw [h1]; simp [ht])) []

/-- What is left after `complete_command` failed on a text. -/
def leftAfterError (src : String) : Option String :=
  match Method.completeCommand.run (parserOf src) with
  | (.err _, s) => some (String.ofList (s.rest.map fun x => x.2.asStr).flatten)
  | _ => none

/-- `complete_command` fails on a text, and is then called until it returns `Ok(None)`: the number of
commands it returns. -/
def commandsAfterError (src : String) : Option Nat :=
  match Method.completeCommand.run (parserOf src) with
  | (.err _, s) => count 10 s
  | _ => none
where
  count : Nat → PSt CIter EmptyBuilder → Option Nat
  | 0, _ => none
  | n + 1, s =>
    match Method.completeCommand.run s with
    | (.ok (some _), s') => (count n s').map (· + 1)
    | (.ok none, _) => some 0
    | _ => none

/-- **C51, concrete cases.** An error inside backticks and an error in an operator: what is left is the end of
the script, and its commands are parsed. -/
theorem C51_goes_on_after_error :
    leftAfterError "echo `${x y}` z\nb\nc\n" = some " z\nb\nc\n" ∧
    commandsAfterError "echo `${x y}` z\nb\nc\n" = some 3 ∧
    leftAfterError "& b\nc\n" = some " b\nc\n" ∧ commandsAfterError "& b\nc\n" = some 2 := by
  refine ⟨?_, ?_, ?_, ?_⟩ <;> decide +kernel

/-- **C51 is false with here-documents.** After an error in the body of a here-document, the parser is in that
body: what is left of the body is parsed as commands (here the text `y}; rm all`), and the rest of the script
is lost (parse.rs:1086: the `?` returns before the token stream is put back). -/
theorem C51_error_in_heredoc_loses_script :
    leftAfterError "cat <<E\n${x y}; rm all\nE\necho a\n" = some "y}; rm all\n" ∧
    commandsAfterError "cat <<E\n${x y}; rm all\nE\necho a\n" = some 2 := by
  refine ⟨?_, ?_⟩ <;> decide +kernel
end Conch
