import Verif.GramComplete
import Verif.GramSndCmd
import Verif.PropsArith
/-!
# The grammar and the public methods

`Derives m b l a r b'`: the grammar's reading of what the public method `m` returns. The methods
do exactly that: `C31_parser_exact`.
-/
namespace Conch.Gram
open Conch

section
variable {B : Builder}

/-- Calling `m` in the state `s` succeeds with `a`; the tokens `r` are left (whatever their
positions), the builder's state is `b`. -/
def Parses (m : Method) (s : PSt CIter B) (a : m.Ret B.toBTypes) (r : List Token) (b : B.State) :
    Prop :=
  (m.run s).1 = .ok a ∧ (m.run s).2.rest.map (·.2) = r ∧ (m.run s).2.b = b

/-- The tokens a parser has not read yet. -/
def _root_.Conch.PSt.tokens (s : PSt CIter B) : List Token := s.rest.map (·.2)

/-- Methods with a production of the grammar (C22, C27 and C28 are about the others). -/
def _root_.Conch.Method.InGrammar : Method → Prop
  | .peekReservedToken _ | .peekReservedWord _ | .reservedToken _ | .reservedWord _
  | .arithmeticSubstitution => False
  | .commandGroup cfg => Delims.Proper cfg
  | _ => True

/-- What the grammar says about a method. -/
def Derives : (m : Method) → B.State → List Token →
    m.Ret B.toBTypes → List Token → B.State → Prop
  | .completeCommand, b, l, a, r, b' => Reads .top b l a r b'
  | .andOrList, b, l, a, r, b' => Reads .andOr b l a r b'
  | .pipeline, b, l, a, r, b' => Reads .pipeline b l a r b'
  | .command, b, l, a, r, b' => Reads .command b l a r b'
  | .simpleCommand, b, l, a, r, b' => Reads .simple b l a r b'
  | .redirectList, b, l, a, r, b' => Reads .redirects b l a r b'
  | .redirect, b, l, a, r, b' => Reads .redirect b l a r b'
  | .redirectHeredoc fd, b, l, a, r, b' => Reads (.heredoc fd) b l a r b'
  | .word, b, l, a, r, b' => Reads .word b l a r b'
  | .wordPreserveTrailingWhitespace, b, l, a, r, b' => Reads .wordP b l a r b'
  | .backtickedCommandSubstitution, b, l, a, r, b' =>
      ∃ w b1, Reads .backtick b l w r b1 ∧ Calls (.word (.Single (.Simple w))) b1 a b'
  | .parameter, b, l, a, r, b' =>
      ∃ w b1, Reads .param b l w r b1 ∧ Calls (.word (.Single (.Simple w))) b1 a b'
  | .doGroup, b, l, a, r, b' => Reads .doGroup b l a r b'
  | .braceGroup, b, l, a, r, b' => Reads .brace b l a r b'
  | .subshell, b, l, a, r, b' => Reads (.subshell false) b l a r b'
  | .compoundCommand, b, l, a, r, b' =>
      ∃ l' kw, Skip l l' ∧ CompoundStart l' kw ∧ Reads (.compound kw) b l' a r b'
  | .loopCommand, b, l, a, r, b' => Reads .loopCommand b l a r b'
  | .ifCommand, b, l, a, r, b' => Reads .ifCommand b l a r b'
  | .forCommand, b, l, a, r, b' => Reads .forCommand b l a r b'
  | .caseCommand, b, l, a, r, b' => Reads .caseCommand b l a r b'
  | .functionDeclaration, b, l, a, r, b' => Reads .function b l a r b'
  | .maybeFunctionDeclaration, b, l, a, r, b' => ∃ l', Skip l l' ∧
      (FunctionStart l' ∧ (∃ c, a = some c ∧ Reads .function b l' c r b') ∨
       ¬ FunctionStart l' ∧ a = none ∧ r = l' ∧ b' = b)
  | .commandGroup cfg, b, l, a, r, b' => Reads (.group cfg) b l a r b' ∧ a.commands ≠ []
  | .skipWhitespace, b, l, _, r, b' => Skip l r ∧ b' = b
  | .linebreak, b, l, a, r, b' => Lines l a r ∧ b' = b
  | .newline, b, l, a, r, b' => OptLine l a r ∧ b' = b
  | .peekReservedToken _, _, _, _, _, _ | .peekReservedWord _, _, _, _, _, _
  | .reservedToken _, _, _, _, _, _ | .reservedWord _, _, _, _, _, _
  | .arithmeticSubstitution, _, _, _, _, _ => False

theorem parses_of_run {m : Method} {s : PSt CIter B} {a r b'}
    (h : Run m.run s.tokens s.b a r b') : Parses m s a r b' := by
  obtain ⟨R, e, hR, heq⟩ := h s.rest s.it.1.abs.endPos rfl
  obtain ⟨h1, h2, h3⟩ := gives_of_eq heq
  exact ⟨h1, by rw [h2]; exact hR, h3⟩

theorem parses_snd {m : Method} {s : PSt CIter B} {a r b'} {Q : m.Ret B.toBTypes → List Token → B.State → Prop}
    (hp : Parses m s a r b') (h : Snd m.run s.tokens s.b Q) : Q a r b' := by
  obtain ⟨h1, h2, h3⟩ := hp
  have key := Method.run_abs m s
  change m.run (st s.rest s.it.1.abs.endPos s.b) = _ at key
  rw [h1] at key
  have := h s.rest s.it.1.abs.endPos rfl a _ key
  subst h2 h3
  exact this

theorem run_claim {α : Type} {f : Rec AIter B → P AIter B α} {l : List Token} {b : B.State} {a r b'}
    (h : Run (f (Rec.fix (l.length + 1))) l b a r b') : Run (Conch.run f) l b a r b' := by
  intro L e hL
  obtain ⟨R, e', hR, heq⟩ := h L e hL
  refine ⟨R, e', hR, ?_⟩
  have : L.length = l.length := by rw [← hL]; simp
  rw [← this] at heq
  exact heq

theorem run_snd {α : Type} {f : Rec AIter B → P AIter B α} {l : List Token} {b : B.State}
    {Q : α → List Token → B.State → Prop} (h : ∀ R : Rec AIter B, SndRec R → Snd (f R) l b Q) :
    Snd (Conch.run f) l b Q := by
  intro L e hL a s' heq
  exact h _ (sound_fix _) L e hL a s' heq

/-- **C31.** What the grammar reads, the parser reads. -/
theorem _root_.Conch.C31_parser_accepts_grammar (m : Method) (hm : m.InGrammar) (s : PSt CIter B) (a : m.Ret B.toBTypes)
    (r : List Token) (b' : B.State) (h : Derives m s.b s.tokens a r b') :
    Parses m s a r b' := by
  apply parses_of_run
  generalize s.b = b at h
  generalize s.tokens = l at h
  cases m
  case completeCommand => exact run_claim (complete h _ (by simp [NT.Fits]))
  case andOrList => exact run_claim (complete h _ (by simp [NT.Fits]))
  case pipeline => exact run_claim (complete h _ (by simp [NT.Fits]))
  case command => exact run_claim (complete h _ (by simp [NT.Fits]))
  case simpleCommand => exact run_claim (complete h _ (by simp [NT.Fits]))
  case redirectList => exact run_claim (complete h _ (by simp [NT.Fits]) []).run
  case redirect => exact run_claim (complete h _ (by simp [NT.Fits]))
  case redirectHeredoc => exact run_claim (f := (redirectHeredoc · _)) (complete h _ (by simp [NT.Fits]))
  case word => exact run_claim (complete h _ (by simp [NT.Fits]))
  case wordPreserveTrailingWhitespace => exact run_claim (complete h _ (by simp [NT.Fits]))
  case backtickedCommandSubstitution =>
    obtain ⟨w, b1, h, hc⟩ := h
    exact run_claim (Run.bind (complete h _ (by simp [NT.Fits])) (.call hc))
  case parameter =>
    obtain ⟨w, b1, h, hc⟩ := h
    exact run_claim (Run.bind (complete h _ (by simp only [NT.Fits]; omega)) (.call hc))
  case doGroup => exact run_claim (complete h _ (by simp [NT.Fits])).1
  case braceGroup => exact run_claim (complete h _ (by simp [NT.Fits]))
  case subshell => exact run_claim (complete h _ (by simp [NT.Fits]))
  case compoundCommand =>
    obtain ⟨l', kw, hs, hk, h⟩ := h
    refine run_claim (Run.bind (compoundKw_run hs hk) (complete h _ ?_))
    have := hs.le
    simp [NT.Fits]; omega
  case loopCommand => exact run_claim (complete h _ (by simp [NT.Fits]))
  case ifCommand => exact run_claim (complete h _ (by simp [NT.Fits]))
  case forCommand => exact run_claim (complete h _ (by simp [NT.Fits]))
  case caseCommand => exact run_claim (complete h _ (by simp [NT.Fits]))
  case maybeFunctionDeclaration =>
    obtain ⟨l', hs, ⟨hf, c, rfl, h⟩ | ⟨hf, rfl, rfl, rfl⟩⟩ := h
    · refine run_claim (maybeFunction_some' hs hf (complete h _ ?_))
      have := hs.le
      simp only [NT.Fits]; omega
    · exact run_claim (maybeFunction_none' hs hf)
  case functionDeclaration => exact run_claim (complete h _ (by simp [NT.Fits]))
  case skipWhitespace => obtain ⟨h, rfl⟩ := h; exact .skip h
  case linebreak => obtain ⟨h, rfl⟩ := h; exact .linebreak h
  case newline => obtain ⟨h, rfl⟩ := h; exact .newline h
  case commandGroup cfg =>
    obtain ⟨h, hne⟩ := h
    exact run_claim (f := (commandGroup · cfg)) (commandGroup_run (group_run hm (complete h _ (by simp [NT.Fits]))) hne)
  all_goals exact hm.elim

/-- **C31.** Whatever the parser reads successfully, the grammar reads. -/
theorem _root_.Conch.C31_parser_within_grammar (m : Method) (hm : m.InGrammar) (s : PSt CIter B) (a : m.Ret B.toBTypes)
    (r : List Token) (b' : B.State) (h : Parses m s a r b') :
    Derives m s.b s.tokens a r b' := by
  refine parses_snd h (Q := fun a r b' => Derives m s.b s.tokens a r b') ?_
  clear h
  generalize s.b = b
  generalize s.tokens = l
  cases m
  case completeCommand => exact run_snd fun R hR => snd_top hR _ _
  case andOrList => exact run_snd fun R hR => snd_andOr hR _ _
  case pipeline => exact run_snd fun R hR => snd_pipeline hR _ _
  case command => exact run_snd fun R hR => snd_command hR _ _
  case simpleCommand => exact run_snd fun R hR => snd_simple hR _ _
  case redirectList => exact run_snd fun R hR => snd_redirects hR _ _
  case redirect => exact run_snd fun R hR => snd_redirect hR _ _
  case redirectHeredoc => exact run_snd (f := (redirectHeredoc · _)) fun R hR => snd_heredoc hR _ _ _
  case word => exact run_snd fun R hR => snd_word hR _ _
  case wordPreserveTrailingWhitespace => exact run_snd fun R hR => snd_wordP hR _ _
  case backtickedCommandSubstitution =>
    exact run_snd fun R hR => .seq (snd_backtick hR _ _) fun w r b1 h => .call fun a b' hc => ⟨w, b1, h, hc⟩
  case parameter =>
    exact run_snd fun R hR => .seq (snd_param hR _ _) fun w r b1 h => .call fun a b' hc => ⟨w, b1, h, hc⟩
  case doGroup => exact run_snd fun R hR => snd_doGroup hR _ _
  case braceGroup => exact run_snd fun R hR => snd_brace hR _ _
  case subshell => exact run_snd fun R hR => snd_subshell hR _ _ _
  case compoundCommand =>
    refine run_snd fun R hR => ?_
    unfold compoundCommand
    refine .compoundType (fun l' kw hs hk => ?_) fun _ _ _ => .unexpected
    exact (snd_compound hR kw _ _).mono fun a r b' h => ⟨l', kw, hs, hk, h⟩
  case loopCommand => exact run_snd fun R hR => snd_loop hR _ _
  case ifCommand => exact run_snd fun R hR => snd_if hR _ _
  case forCommand => exact run_snd fun R hR => snd_for hR _ _
  case caseCommand => exact run_snd fun R hR => snd_case hR _ _
  case maybeFunctionDeclaration =>
    refine run_snd fun R hR => ?_
    unfold maybeFunctionDeclaration
    have key : ∀ l', Skip l l' → FunctionStart l' →
        Snd (do let c ← functionDeclaration R; pure (some c) : P AIter B _) l' b
          fun a r b' => Derives .maybeFunctionDeclaration b l a r b' := fun l' hs hf =>
      .seq (snd_function hR _ _) fun a r b' h => .pure ⟨l', hs, .inl ⟨hf, _, rfl, h⟩⟩
    refine .peekWord (by simp) (fun l2 w r hs2 hw hk => ?_) fun l2 hs2 hn2 => ?_
    · rw [List.mem_singleton] at hw; subst hw
      exact key l2 hs2 (.keyword hk)
    · refine .lookahead mpFunction_it fun it => .ite (fun h => ?_) fun h => ?_
      · rw [mpFunction_val'] at h
        refine key l2 hs2 ?_
        obtain ⟨_, _, rfl⟩ | ⟨_, _, _, rfl⟩ := h
        · exact .paren
        · exact .wsParen
      · rw [mpFunction_val'] at h
        refine .pure ⟨l2, hs2, .inr ⟨fun hf => ?_, rfl, rfl, rfl⟩⟩
        cases hf with
        | keyword hk => exact hn2 _ (List.mem_singleton.2 rfl) _ hk
        | paren => exact h (.inl ⟨_, _, rfl⟩)
        | wsParen => exact h (.inr ⟨_, _, _, rfl⟩)
  case functionDeclaration => exact run_snd fun R hR => snd_function hR _ _
  case skipWhitespace => exact .ret (.skip fun r hr => .pure ⟨hr, rfl⟩)
  case linebreak => exact .ret (.linebreak fun n r hr => .pure ⟨hr, rfl⟩)
  case newline => exact .ret (.newline fun n r hr => .pure ⟨hr, rfl⟩)
  case commandGroup cfg =>
    exact run_snd (f := (commandGroup · cfg)) fun R hR => snd_commandGroup hR hm _ _
  all_goals exact hm.elim

/-- **C31.** The parser reads exactly what the grammar reads: the same result, the same tokens
left and the same state of the builder. -/
theorem _root_.Conch.C31_parser_exact (m : Method) (hm : m.InGrammar) (s : PSt CIter B)
    (a : m.Ret B.toBTypes) (r : List Token) (b' : B.State) :
    Parses m s a r b' ↔ Derives m s.b s.tokens a r b' :=
  ⟨C31_parser_within_grammar m hm s a r b', C31_parser_accepts_grammar m hm s a r b'⟩

/-- **C31.** The grammar is unambiguous: a text has at most one reading. -/
theorem _root_.Conch.C31_unambiguous (m : Method) (hm : m.InGrammar) (b : B.State) (l : List Token)
    {a₁ a₂ : m.Ret B.toBTypes} {r₁ r₂ : List Token} {b₁ b₂ : B.State}
    (h₁ : Derives m b l a₁ r₁ b₁) (h₂ : Derives m b l a₂ r₂ b₂) : a₁ = a₂ ∧ r₁ = r₂ ∧ b₁ = b₂ := by
  have key : ∀ {a r b'}, Derives m b l a r b' → Parses m (parserOn l b) a r b' := by
    intro a r b' h
    refine C31_parser_accepts_grammar m hm (parserOn l b) a r b' ?_
    rw [PSt.tokens, parserOn_rest]; exact h
  obtain ⟨x1, x2, x3⟩ := key h₁
  obtain ⟨y1, y2, y3⟩ := key h₂
  rw [x1] at y1
  exact ⟨by simpa using y1, x2.symm.trans y2, x3.symm.trans y3⟩

end
end Conch.Gram
