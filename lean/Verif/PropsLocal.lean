import Verif.LocalEnd
import Verif.RoundTrip
/-!
# C42: a command is determined by its own text; scripts concatenate

What the parser returns for a command that ends with its line does not depend on what follows the
line; hence the commands of a file followed by another file are the commands of the one followed by
the commands of the other.
-/
namespace Conch
open Spec Gram

/-! ## The iterator and the grammar -/

/-- `Prog b l cs`: the tokens are read as the commands `cs`, up to the end of input. -/
inductive Prog {B : Builder} : B.State → List Token → List B.Command → Prop
  | done {b l r b'} : Reads .top b l none r b' → Prog b l []
  | cons {b l c r b' cs} : Reads .top b l (some c) r b' → Prog b' r cs → Prog b l (c :: cs)

section
variable {B : Builder}

theorem next_some {s : PSt CIter B} {c : B.Command} {r b'} (h : Parses .completeCommand s (some c) r b') :
    ∃ s', ParserIterator.next ⟨some s⟩ = (.ok (some (.ok c)), ⟨some s'⟩) ∧ s'.tokens = r ∧ s'.b = b' := by
  obtain ⟨g1, g2, g3⟩ := h
  refine ⟨(run completeCommand s).2, ?_, g2, g3⟩
  change (run completeCommand s).1 = _ at g1
  unfold ParserIterator.next
  simp only
  generalize run completeCommand s = z at g1
  obtain ⟨z, s'⟩ := z
  cases g1
  rfl

theorem next_none {s : PSt CIter B} {r b'} (h : Parses .completeCommand s none r b') :
    (ParserIterator.next ⟨some s⟩).1 = .ok none := by
  have g1 := h.1
  change (run completeCommand s).1 = _ at g1
  unfold ParserIterator.next
  simp only
  generalize run completeCommand s = z at g1
  obtain ⟨z, s'⟩ := z
  cases g1
  rfl

theorem of_next_some {s : PSt CIter B} {c : B.Command} {p'}
    (h : ParserIterator.next ⟨some s⟩ = (.ok (some (.ok c)), p')) :
    ∃ s', p' = ⟨some s'⟩ ∧ Parses .completeCommand s (some c) s'.tokens s'.b := by
  unfold ParserIterator.next at h
  simp only at h
  have e : Method.completeCommand.run s = run completeCommand s := rfl
  rcases hz : run completeCommand s with ⟨z, s'⟩
  rw [hz] at h e
  rcases z with (_ | c) | e | n | _
  · cases h
  · cases h
    exact ⟨s', rfl, by rw [e], by rw [e]; rfl, by rw [e]⟩
  all_goals cases h

theorem of_next_none {s : PSt CIter B}
    (h : (ParserIterator.next ⟨some s⟩).1 = .ok none) :
    ∃ r b', Parses .completeCommand s none r b' := by
  unfold ParserIterator.next at h
  simp only at h
  have e : Method.completeCommand.run s = run completeCommand s := rfl
  rcases hz : run completeCommand s with ⟨z, s'⟩
  rw [hz] at h e
  rcases z with (_ | c) | e | n | _
  · exact ⟨s'.tokens, s'.b, by rw [e], by rw [e]; rfl, by rw [e]⟩
  all_goals cases h

theorem top_iff {s : PSt CIter B} {a : Option B.Command} {r b'} :
    Parses .completeCommand s a r b' ↔ Reads .top s.b s.tokens a r b' :=
  C31_parser_exact .completeCommand trivial s a r b'

theorem prog_yields {b : B.State} {l : List Token} {cs : List B.Command} (h : Prog b l cs) :
    ∀ s : PSt CIter B, s.tokens = l → s.b = b →
      ∃ p, Yields ⟨some s⟩ (cs.map .ok) p ∧ p.next.1 = .ok none := by
  induction h with
  | done h => rintro s rfl rfl; exact ⟨_, .nil, next_none (top_iff.2 h)⟩
  | cons h _ ih =>
    rintro s rfl rfl
    obtain ⟨s', h1, h2, h3⟩ := next_some (top_iff.2 h)
    obtain ⟨p, h4, h5⟩ := ih s' h2 h3
    exact ⟨p, .cons h1 h4, h5⟩

theorem yields_prog {s : PSt CIter B} {cs : List B.Command} {p}
    (h : Yields ⟨some s⟩ (cs.map .ok) p) (hp : p.next.1 = .ok none) : Prog s.b s.tokens cs := by
  induction cs generalizing s with
  | nil =>
    cases h
    obtain ⟨r, b', h⟩ := of_next_none hp
    exact .done (top_iff.1 h)
  | cons c cs ih =>
    cases h with
    | cons h1 h2 =>
      obtain ⟨s', rfl, h3⟩ := of_next_some h1
      exact .cons (top_iff.1 h3) (ih h2)

end

/-! ## Locality -/

theorem method_ends {B : Builder} {z : Option Token} (m : Method) (hm : m.InGrammar) (s1 s2 : PSt CIter B)
    (t1 t2 : List Token) (hz : Probe z t1) (e : Ends z t1 t2 s1.tokens s2.tokens) (hb : s1.b = s2.b)
    (a : m.Ret B.toBTypes) (r : List Token)
    (b' : B.State) (h : Parses m s1 a r b') (hr : t1.length < live z r) :
    ∃ r', Ends z t1 t2 r r' ∧ Parses m s2 a r' b' := by
  have hr' : t1.length < r.length := by have := live_le (z := z) (l := r); omega
  suffices ∃ r', Ends z t1 t2 r r' ∧ Derives m s2.b s2.tokens a r' b' by
    obtain ⟨r', e', h'⟩ := this
    exact ⟨r', e', C31_parser_accepts_grammar m hm s2 a _ b' h'⟩
  replace h := C31_parser_within_grammar m hm s1 a r b' h
  rw [hb] at h
  generalize s2.b = b at h
  generalize s1.tokens = l1 at e h
  generalize s2.tokens = l2 at e
  clear hb
  cases m
  case completeCommand => exact Reads.ends hz h trivial _ e hr
  case andOrList => exact Reads.ends hz h trivial _ e hr
  case pipeline => exact Reads.ends hz h trivial _ e hr
  case command => exact Reads.ends hz h trivial _ e hr
  case simpleCommand => exact Reads.ends hz h trivial _ e hr
  case redirectList => exact Reads.ends hz h trivial _ e hr
  case redirect => exact Reads.ends hz h trivial _ e hr
  case redirectHeredoc => exact Reads.ends hz h trivial _ e hr
  case word => exact Reads.ends hz h trivial _ e hr
  case wordPreserveTrailingWhitespace => exact Reads.ends hz h trivial _ e hr
  case backtickedCommandSubstitution =>
    obtain ⟨w, b1, h, hc⟩ := h
    obtain ⟨r', e', h⟩ := Reads.ends hz h trivial _ e hr
    exact ⟨r', e', w, b1, h, hc⟩
  case parameter =>
    obtain ⟨w, b1, h, hc⟩ := h
    obtain ⟨r', e', h⟩ := Reads.ends hz h trivial _ e hr
    exact ⟨r', e', w, b1, h, hc⟩
  case doGroup => exact Reads.ends hz h trivial _ e hr
  case braceGroup => exact Reads.ends hz h trivial _ e hr
  case subshell => exact Reads.ends hz h trivial _ e hr
  case compoundCommand =>
    obtain ⟨l', kw, hs, hk, h⟩ := h
    obtain ⟨l3, e3, hs3⟩ := e.skip hs (by have := h.len.1; omega)
    obtain ⟨r', e', h⟩ := Reads.ends hz h trivial _ e3 hr
    exact ⟨r', e', l3, kw, hs3, e3.compoundStart hk, h⟩
  case loopCommand => exact Reads.ends hz h trivial _ e hr
  case ifCommand => exact Reads.ends hz h trivial _ e hr
  case forCommand => exact Reads.ends hz h trivial _ e hr
  case caseCommand => exact Reads.ends hz h trivial _ e hr
  case maybeFunctionDeclaration =>
    obtain ⟨l', hs, ⟨hf, c, rfl, h⟩ | ⟨hf, rfl, rfl, rfl⟩⟩ := h
    · obtain ⟨l3, e3, hs3⟩ := e.skip hs (by have := h.len.1; omega)
      obtain ⟨r', e', h⟩ := Reads.ends hz h trivial _ e3 hr
      exact ⟨r', e', l3, hs3, .inl ⟨e3.functionStart hf, c, rfl, h⟩⟩
    · obtain ⟨l3, e3, hs3⟩ := e.skip hs hr'
      exact ⟨l3, e3, l3, hs3, .inr ⟨fun h => hf (e3.symm.functionStart h), rfl, rfl, rfl⟩⟩
  case functionDeclaration => exact Reads.ends hz h trivial _ e hr
  case skipWhitespace =>
    obtain ⟨h, rfl⟩ := h
    obtain ⟨r', e', h⟩ := e.skip h hr'
    exact ⟨r', e', h, rfl⟩
  case linebreak =>
    obtain ⟨h, rfl⟩ := h
    obtain ⟨r', e', h⟩ := e.lines h hr'
    exact ⟨r', e', h, rfl⟩
  case newline =>
    obtain ⟨h, rfl⟩ := h
    obtain ⟨r', e', h⟩ := e.optLine h hr'
    exact ⟨r', e', h, rfl⟩
  case commandGroup cfg =>
    obtain ⟨h, hne⟩ := h
    obtain ⟨r', e', h⟩ := Reads.ends hz h hm _ e hr
    exact ⟨r', e', h, hne⟩
  all_goals exact hm.elim


/-- Without a probe. -/
theorem Gram.probe_none {t : List Token} : Probe none t := by rintro _ ⟨⟩

/-- The word alone on the last line. -/
theorem Gram.probe_some {w : Str} : Probe (some (.Name w)) [.Name w] := by rintro _ ⟨⟩; exact ⟨⟨w, rfl⟩, rfl⟩

/-- **C42.** What a method returns before it reaches the end of a line does not depend on what follows
the line: with other tokens after it the method returns the same, leaves the same tokens up to the
newline and makes the same calls of the builder. -/
theorem C42_method_local {B : Builder} (m : Method) (hm : m.InGrammar) (s1 s2 : PSt CIter B)
    (x t1 t2 : List Token) (hx : Gram.Plain none x) (h1 : s1.tokens = x ++ .Newline :: t1)
    (h2 : s2.tokens = x ++ .Newline :: t2) (hb : s1.b = s2.b) (a : m.Ret B.toBTypes) (r : List Token)
    (b' : B.State) (h : Parses m s1 a r b') (hr : t1.length < r.length) :
    ∃ y, r = y ++ .Newline :: t1 ∧ Parses m s2 a (y ++ .Newline :: t2) b' := by
  obtain ⟨r', ⟨y, _, rfl, rfl⟩, h'⟩ :=
    method_ends m hm s1 s2 t1 t2 probe_none ⟨x, hx, h1, h2⟩ hb a r b' h (by simpa using hr)
  exact ⟨y, rfl, h'⟩

/-- **C42.** The same for tokens with here-documents, if after them the word `w` on a line of its own is
not taken into a here-document. -/
theorem C42_method_local_heredoc {B : Builder} (m : Method) (hm : m.InGrammar) (s1 s2 : PSt CIter B)
    (x t2 : List Token) (w : Str) (hx : Gram.Plain (some (.Name w)) x) (h1 : s1.tokens = x ++ [.Newline, .Name w])
    (h2 : s2.tokens = x ++ .Newline :: t2) (hb : s1.b = s2.b) (a : m.Ret B.toBTypes) (r : List Token)
    (b' : B.State) (h : Parses m s1 a r b') (hr : 1 < r.length) (hw : .Name w ∈ r) :
    ∃ y, r = y ++ [.Newline, .Name w] ∧ Parses m s2 a (y ++ .Newline :: t2) b' := by
  obtain ⟨r', ⟨y, _, rfl, rfl⟩, h'⟩ :=
    method_ends m hm s1 s2 _ t2 probe_some ⟨x, hx, h1, h2⟩ hb a r b' h (by simpa [live, hw] using hr)
  exact ⟨y, rfl, h'⟩

/-- **C42.** A command that ends with its line does not depend on what follows: if `complete_command`
reads the tokens `x` and the newline, it does so whatever comes next, with the same result and the same
calls of the builder. -/
theorem C42_command_local {B : Builder} (s1 s2 : PSt CIter B) (x t1 t2 : List Token) (hx : Gram.Plain none x)
    (h1 : s1.tokens = x ++ .Newline :: t1) (h2 : s2.tokens = x ++ .Newline :: t2) (hb : s1.b = s2.b)
    (c : B.Command) (b' : B.State) (h : Parses .completeCommand s1 (some c) t1 b') :
    Parses .completeCommand s2 (some c) t2 b' := by
  have e : Ends none t1 t2 s1.tokens s2.tokens := ⟨x, hx, h1, h2⟩
  rw [top_iff] at *
  rw [← hb]
  exact e.top_end probe_none h rfl

/-- **C42.** The same for a command with here-documents, if after it the word `w` on a line of its own is
not taken into a here-document. -/
theorem C42_command_local_heredoc {B : Builder} (s1 s2 : PSt CIter B) (x t2 : List Token) (w : Str)
    (hx : Gram.Plain (some (.Name w)) x)
    (h1 : s1.tokens = x ++ [.Newline, .Name w]) (h2 : s2.tokens = x ++ .Newline :: t2) (hb : s1.b = s2.b)
    (c : B.Command) (b' : B.State) (h : Parses .completeCommand s1 (some c) [.Name w] b') :
    Parses .completeCommand s2 (some c) t2 b' := by
  have e : Ends (some (.Name w)) [.Name w] t2 s1.tokens s2.tokens := ⟨x, hx, h1, h2⟩
  rw [top_iff] at *
  rw [← hb]
  exact e.top_end probe_some h (by simp [live])

/-! ## Concatenation -/

theorem Lines.total (l : List Token) : ∃ ns r, Gram.Lines l ns r := by
  induction hn : l.length using Nat.strongRecOn generalizing l with
  | ind n ih =>
    obtain ⟨r, bs, rfl, hb, hr⟩ := skip_total l
    by_cases h : Gram.NoLineStart r
    · exact ⟨[], r, .nil ⟨bs, rfl, hb, hr⟩ h⟩
    · have : ∃ l' n, Gram.Line (bs ++ r) n l' := by
        simp only [Gram.NoLineStart, not_forall, not_and_or, not_not] at h
        obtain ⟨r', rfl | rfl⟩ := h
        · exact ⟨_, _, .newline hb⟩
        · by_cases hN : Token.Newline ∈ r'
          · obtain ⟨u, v, rfl, hu⟩ := List.eq_append_cons_of_mem hN
            exact ⟨v, _, by simpa using Gram.Line.comment (r := v) hb (by rintro t ht rfl; exact hu ht)⟩
          · exact ⟨_, _, .lastComment hb (by rintro t ht rfl; exact hN ht)⟩
      obtain ⟨l', n', h'⟩ := this
      have := h'.lt
      obtain ⟨ns, r2, h2⟩ := ih _ (by omega) l' rfl
      exact ⟨_, _, .cons h' h2⟩

theorem Lines.unique {l r r' : List Token} {ns ns' : List Nl} (h : Gram.Lines l ns r) (h' : Gram.Lines l ns' r') :
    ns = ns' ∧ r = r' := by
  have := C31_unambiguous (B := DefaultBuilder) .linebreak trivial () l (a₁ := ns) (a₂ := ns') (r₁ := r)
    (r₂ := r') (b₁ := ()) (b₂ := ()) ⟨h, rfl⟩ ⟨h', rfl⟩
  exact ⟨this.1, this.2.1⟩

theorem Lines.same_length {l r : List Token} {ns : List Nl} (h : Gram.Lines l ns r) (hl : l.length ≤ r.length) :
    ns = [] := by
  cases h with
  | nil => rfl
  | cons h1 h2 => have := h1.lt; have := h2.part.1; omega

/-- Lines up to `t1`, with more lines in place of `t1`. -/
theorem Lines.append {z : Option Token} {t1 l l' q r : List Token} {ns ms : List Nl} (hl : Gram.Lines l ns t1)
    (ha : (l = t1 ∧ l' = q) ∨ Ends z t1 q l l') (hq : Gram.Lines q ms r) : Gram.Lines l' (ns ++ ms) r := by
  induction hl generalizing l' with
  | @nil l t1 hs hn =>
    rcases ha with ⟨rfl, rfl⟩ | ha
    · exact hq
    · exact absurd rfl (Ends.not_skip ha hs)
  | @cons l n l1 ns t1 h1 h2 ih =>
    have e : Ends z t1 q l l' := ha.resolve_left (by
      rintro ⟨rfl, rfl⟩; have := h1.lt; have := h2.part.1; omega)
    by_cases hlen : t1.length < l1.length
    · obtain ⟨r2, e2, h3⟩ := e.line h1 hlen
      exact .cons h3 (ih (.inr e2))
    · have hlen : l1.length = t1.length := by have := h2.part.1; omega
      obtain rfl := Lines.same_length h2 (by omega)
      exact .cons (e.line_end h1 hlen) hq

section
variable {z : Option Token} {c : TopLevelCommand Str} {cs cs1 : List (TopLevelCommand Str)} {t1 l l' q r : List Token}

/-- With the default builder the comments before a command make no difference. -/
theorem complete_pre {pre pre' : List Nl} {l r : List Token} {b b' : DefaultBuilder.State}
    (h : Reads (B := DefaultBuilder) (.complete pre) b l c r b') : Reads (B := DefaultBuilder) (.complete pre') b l c r b' := by
  cases h with
  | complete h1 h2 h3 =>
    refine .complete h1 h2 ?_
    rename_i s cm
    cases s <;> exact h3

theorem top_pre {b b' : DefaultBuilder.State} {a : Option (TopLevelCommand Str)} {ns : List Nl}
    (hl : Gram.Lines l ns t1) (ha : (l = t1 ∧ l' = q) ∨ Ends z t1 q l l')
    (h : Reads (B := DefaultBuilder) .top b q a r b') : Reads (B := DefaultBuilder) .top b (l') a r b' := by
  cases h with
  | @topCommand _ _ ns' _ _ _ _ h1 h2 h3 =>
    exact .topCommand (ns := ns ++ ns') (Lines.append hl ha h1) h2 (complete_pre h3)
  | topNone h1 =>
    by_cases hn : ns = []
    · exact .topNone (by simpa [hn] using Lines.append hl ha h1)
    · exact .topComments (Lines.append hl ha h1) (by simpa using hn) rfl
  | topComments h1 h2 h3 => exact .topComments (Lines.append hl ha h1) (by simp [h2]) rfl

theorem top_pre' {b b' : DefaultBuilder.State} {a : Option (TopLevelCommand Str)} {ns : List Nl}
    (hl : Gram.Lines l ns t1) (ha : (l = t1 ∧ l' = q) ∨ Ends z t1 q l l')
    (h : Reads (B := DefaultBuilder) .top b (l') a r b') : Reads (B := DefaultBuilder) .top b q a r b' := by
  obtain ⟨ms, q1, hq⟩ := Lines.total q
  have h' := Lines.append hl ha hq
  cases h with
  | topCommand h1 h2 h3 =>
    obtain ⟨rfl, rfl⟩ := Lines.unique h' h1
    exact .topCommand (ns := ms) hq h2 (complete_pre h3)
  | topNone h1 =>
    obtain ⟨h2, rfl⟩ := Lines.unique h' h1
    have : ms = [] := by simpa using (List.append_eq_nil_iff.1 h2).2
    subst this
    exact .topNone hq
  | topComments h1 h2 h3 =>
    obtain ⟨rfl, rfl⟩ := Lines.unique h' h1
    by_cases hn : ms = []
    · subst hn; exact .topNone hq
    · exact .topComments hq hn rfl

theorem prog_pre {b : DefaultBuilder.State} {ns : List Nl} (hl : Gram.Lines l ns t1) (ha : (l = t1 ∧ l' = q) ∨ Ends z t1 q l l') :
    Prog (B := DefaultBuilder) b (l') cs ↔ Prog (B := DefaultBuilder) b q cs := by
  constructor
  · intro h
    cases h with
    | done h => exact .done (top_pre' hl ha h)
    | cons h h2 => exact .cons (top_pre' hl ha h) h2
  · intro h
    cases h with
    | done h => exact .done (top_pre hl ha h)
    | cons h h2 => exact .cons (top_pre hl ha h) h2

theorem prog_nil {B : Builder} {b : B.State} {cs : List B.Command} (h : Prog b [] cs) : cs = [] := by
  cases h with
  | done _ => rfl
  | cons h _ =>
    exfalso
    generalize hl : ([] : List Token) = l at h
    cases h with
    | topCommand h1 h2 _ =>
      subst hl
      cases h1 with
      | nil hs _ => have := hs.le; simp at this; exact h2 this
      | cons h1 _ => have := h1.lt; simp at this

theorem prog_cons_unique {B : Builder} {b : B.State} {l r b'} {c : B.Command} {cs : List B.Command}
    (h : Reads .top b l (some c) r b') (hp : Prog b l cs) : ∃ cs', cs = c :: cs' ∧ Prog b' r cs' := by
  cases hp with
  | done h' =>
    have := C31_unambiguous .completeCommand trivial b l h h'
    cases this.1
  | cons h' hp =>
    have := C31_unambiguous .completeCommand trivial b l h h'
    obtain ⟨h1, rfl, rfl⟩ := this
    cases h1
    exact ⟨_, rfl, hp⟩

/-- The tokens are read as the commands `cs`, up to lines before `t1`. -/
inductive ProgTo {B : Builder} (t1 : List Token) : B.State → List Token → List B.Command → B.State → Prop
  | done {b l ns} : Gram.Lines l ns t1 → ProgTo t1 b l [] b
  | cons {b l c r b' cs b''} : Reads .top b l (some c) r b' → ProgTo t1 b' r cs b'' → ProgTo t1 b l (c :: cs) b''

theorem Prog.to {B : Builder} {b : B.State} {l : List Token} {cs : List B.Command} (h : Prog b l cs) :
    ∃ b', ProgTo [] b l cs b' := by
  induction h with
  | @done b _ _ _ h =>
    cases h with
    | topNone h => exact ⟨b, .done h⟩
    | topComments h _ _ => exact ⟨b, .done h⟩
  | cons h _ ih =>
    obtain ⟨b', h'⟩ := ih
    exact ⟨b', .cons h h'⟩

theorem ProgTo.part {B : Builder} {t1 l : List Token} {b b' : B.State} {cs : List B.Command} (h : ProgTo t1 b l cs b') :
    Part t1 l := by
  induction h with
  | done h => exact h.part
  | cons h _ ih => exact ih.trans h.part

theorem ProgTo.length {B : Builder} {t1 l : List Token} {b b' : B.State} {cs : List B.Command} (h : ProgTo t1 b l cs b')
    (hl : l.length ≤ t1.length) : cs = [] := by
  cases h with
  | done h => rfl
  | cons h h' =>
    have := h'.part.1
    cases h with
    | topCommand h1 h2 h3 => have := h1.part.1; have := h3.len.2 trivial; omega

theorem prog_append {b b' : DefaultBuilder.State} (hz : Probe z t1) (h1 : ProgTo (B := DefaultBuilder) t1 b l cs1 b')
    (e : Ends z t1 q l l') :
    Prog (B := DefaultBuilder) b l' cs ↔ ∃ cs2, Prog (B := DefaultBuilder) b q cs2 ∧ cs = cs1 ++ cs2 := by
  induction h1 generalizing cs l' with
  | @done b l ns h =>
    rw [prog_pre h (.inr e)]
    simp
  | @cons b l c r b' cs1 b'' h h2 ih =>
    have hb : b = b' := rfl
    subst hb
    suffices ∃ r', Reads (B := DefaultBuilder) .top b l' (some c) r' b ∧
        ∀ cs, Prog (B := DefaultBuilder) b r' cs ↔ ∃ cs2, Prog (B := DefaultBuilder) b q cs2 ∧ cs = cs1 ++ cs2 by
      obtain ⟨r', h3, h4⟩ := this
      constructor
      · intro hp
        obtain ⟨cs', rfl, hp'⟩ := prog_cons_unique h3 hp
        obtain ⟨cs2, hp2, rfl⟩ := (h4 _).1 hp'
        exact ⟨cs2, hp2, rfl⟩
      · rintro ⟨cs2, hp, rfl⟩
        exact .cons h3 ((h4 _).2 ⟨cs2, hp, rfl⟩)
    have hp := h2.part
    have hlive : Gram.live z r = r.length := by
      cases z with
      | none => rfl
      | some k =>
        obtain ⟨-, rfl⟩ := hz k rfl
        simp [Gram.live, hp.2 k (by simp)]
    by_cases hlen : t1.length < r.length
    · obtain ⟨r', e2, h3⟩ := Reads.ends hz h trivial _ e (by omega)
      exact ⟨_, h3, fun cs => ih e2⟩
    · have hlen : r.length = t1.length := by have := hp.1; omega
      refine ⟨q, e.top_end hz h (by omega), fun cs => ?_⟩
      obtain rfl := h2.length (by omega)
      simp
end

/-- The source text `src` parses to the commands `cs`: the parser with the default builder yields them
and then reports the end of input. -/
def Spec.ParsesTo (cc : CharClass) (src : Str) (cs : List (TopLevelCommand Str)) : Prop :=
  ∃ p, Yields ⟨some (PSt.new (B := DefaultBuilder) (lex cc src) ())⟩ (cs.map .ok) p ∧ p.next.1 = .ok none

theorem parsesTo_iff {cc : CharClass} {src : Str} {cs : List (TopLevelCommand Str)} {b : DefaultBuilder.State} :
    ParsesTo cc src cs ↔ Prog (B := DefaultBuilder) b (lex cc src) cs := by
  have ht : (PSt.new (B := DefaultBuilder) (lex cc src) ()).tokens = lex cc src := parserOn_rest _ _
  constructor
  · rintro ⟨p, h1, h2⟩
    have := yields_prog h1 h2
    rw [ht] at this
    exact this
  · intro h
    exact prog_yields h _ ht rfl

theorem lex_plain {cc : CharClass} {p : Str} (h1 : ¬ ['<', '<'] <:+: p) (h2 : p.getLast? ≠ some '\\') :
    Gram.Plain none (lex cc p) := by
  have h := C01_concat_tokens cc p
  rw [concatTokens] at h
  refine ⟨?_, ?_, by simp, by simp⟩
  · intro _ t ht
    obtain ⟨u, v, e⟩ := List.append_of_mem ht
    rw [e] at h
    constructor
    · rintro rfl
      exact h1 ⟨u.flatMap Token.asStr, v.flatMap Token.asStr, by rw [← h]; simp [Token.asStr]⟩
    · rintro rfl
      exact h1 ⟨u.flatMap Token.asStr, '-' :: v.flatMap Token.asStr, by rw [← h]; simp [Token.asStr]⟩
  · intro hl
    obtain ⟨u, e⟩ := List.getLast?_eq_some_iff.1 hl
    rw [e] at h
    apply h2
    rw [← h]
    simp [Token.asStr]

/-- **C42.** Scripts concatenate. If the text `p`, with a newline after it, parses to the commands `cs1`,
then whatever text `q` follows, `p`, a newline and `q` parse to exactly `cs1` and then the commands
of `q`, and they do not parse if `q` does not. The text `p` must not contain `<<` and must not end in
a backslash, which would join its last line with the first of `q`. -/
theorem C42_scripts_concatenate (cc : CharClass) (hs : cc.Sane) (p q : Str) (cs1 : List (TopLevelCommand Str))
    (hhere : ¬ ['<', '<'] <:+: p) (hlast : p.getLast? ≠ some '\\') (hp : ParsesTo cc (p ++ ['\n']) cs1)
    (cs : List (TopLevelCommand Str)) :
    ParsesTo cc (p ++ '\n' :: q) cs ↔ ∃ cs2, ParsesTo cc q cs2 ∧ cs = cs1 ++ cs2 := by
  let b : DefaultBuilder.State := ()
  rw [parsesTo_iff (b := b)] at *
  have e1 : lex cc (p ++ ['\n']) = lex cc p ++ [.Newline] := by
    rw [lex_line hs p []]; rfl
  have e2 : lex cc (p ++ '\n' :: q) = (lex cc p ++ [.Newline]) ++ lex cc q := by
    rw [lex_line hs p q]; simp
  rw [e1] at hp
  obtain ⟨_, hp⟩ := hp.to
  rw [e2, prog_append (q := lex cc q) probe_none hp ⟨_, lex_plain hhere hlast, rfl, by simp⟩]
  simp only [parsesTo_iff (b := b)]

/-- The parser yields the commands `cs` from the text `src`; then, after blank lines and comments, only
the word `w` is left. -/
def Spec.Leaves (cc : CharClass) (src : Str) (cs : List (TopLevelCommand Str)) (w : Str) : Prop :=
  ∃ s ns b, Yields ⟨some (PSt.new (B := DefaultBuilder) (lex cc src) ())⟩ (cs.map .ok) ⟨some s⟩ ∧
    Parses .linebreak s ns [.Name w] b

theorem leaves_progTo {w : Str} {s s' : PSt CIter DefaultBuilder} {cs : List (TopLevelCommand Str)} {ns : List Nl}
    {b : DefaultBuilder.State} (h : Yields ⟨some s⟩ (cs.map .ok) ⟨some s'⟩) (hl : Parses .linebreak s' ns [.Name w] b) :
    ∃ b', ProgTo (B := DefaultBuilder) [.Name w] s.b s.tokens cs b' := by
  induction cs generalizing s with
  | nil =>
    cases h
    exact ⟨_, .done (C31_parser_within_grammar .linebreak trivial _ _ _ _ hl).1⟩
  | cons c cs ih =>
    cases h with
    | cons h1 h2 =>
      obtain ⟨s1, rfl, h3⟩ := of_next_some h1
      obtain ⟨b', h4⟩ := ih h2
      exact ⟨b', .cons (top_iff.1 h3) h4⟩

theorem lex_plain_probe {cc : CharClass} {p w : Str} (h1 : ¬ w <:+: p) (h2 : p.getLast? ≠ some '\\')
    (h3 : ¬ ['\\', '\\', '\n'] <:+: p) : Gram.Plain (some (.Name w)) (lex cc p) := by
  have h := C01_concat_tokens cc p
  rw [concatTokens] at h
  refine ⟨by simp, ?_, ?_, ?_⟩
  · intro hl
    obtain ⟨u, e⟩ := List.getLast?_eq_some_iff.1 hl
    rw [e] at h
    apply h2
    rw [← h]
    simp [Token.asStr]
  · rintro _ ⟨⟩ ht
    obtain ⟨u, v, e⟩ := List.append_of_mem ht
    rw [e] at h
    exact h1 ⟨u.flatMap Token.asStr, v.flatMap Token.asStr, by rw [← h]; simp [Token.asStr]⟩
  · rintro _ ⟨⟩ ⟨u, v, e⟩
    rw [← e] at h
    exact h3 ⟨u.flatMap Token.asStr, v.flatMap Token.asStr, by rw [← h]; simp [Token.asStr]⟩

/-- **C42.** Scripts with here-documents concatenate, if their here-documents are closed: if from the text
`p`, followed by a line with just the word `w`, which is not in `p`, the parser yields the commands
`cs1` and leaves the word (so that no here-document took it), then whatever text `q` follows, `p`, a newline and `q`
parse to exactly `cs1` and then the commands of `q`, and they do not parse if `q` does not. The text `p`
must not end in a backslash, and no line of it in two. -/
theorem C42_heredoc_scripts_concatenate (cc : CharClass) (hs : cc.Sane) (p q w : Str) (cs1 : List (TopLevelCommand Str))
    (hw : lex cc w = [.Name w]) (hfresh : ¬ w <:+: p) (hlast : p.getLast? ≠ some '\\')
    (hlines : ¬ ['\\', '\\', '\n'] <:+: p) (hp : Leaves cc (p ++ '\n' :: w) cs1 w)
    (cs : List (TopLevelCommand Str)) :
    ParsesTo cc (p ++ '\n' :: q) cs ↔ ∃ cs2, ParsesTo cc q cs2 ∧ cs = cs1 ++ cs2 := by
  obtain ⟨s, ns, b0, hp, hl⟩ := hp
  obtain ⟨b', hp⟩ := leaves_progTo hp hl
  have ht : (PSt.new (B := DefaultBuilder) (lex cc (p ++ '\n' :: w)) ()).tokens = lex cc (p ++ '\n' :: w) := parserOn_rest _ _
  rw [ht, lex_line hs p w, hw] at hp
  let b : DefaultBuilder.State := ()
  simp only [parsesTo_iff (b := b)]
  rw [lex_line hs p q]
  exact prog_append (q := lex cc q) probe_some hp ⟨_, lex_plain_probe hfresh hlast hlines, rfl, rfl⟩

/-- The commands of a script are determined by the script. -/
theorem C42_commands_unique (cc : CharClass) (p : Str) (cs cs' : List (TopLevelCommand Str))
    (h : ParsesTo cc p cs) (h' : ParsesTo cc p cs') : cs = cs' := by
  let b : DefaultBuilder.State := ()
  rw [parsesTo_iff (b := b)] at h h'
  clear_value b
  generalize lex cc p = l at *
  induction h generalizing cs' with
  | done h =>
    cases h' with
    | done _ => rfl
    | cons h' _ => cases (C31_unambiguous .completeCommand trivial _ _ h h').1
  | cons h _ ih =>
    obtain ⟨cs2, rfl, h3⟩ := prog_cons_unique h h'
    rw [ih _ h3]

/-- Programs printed from their syntax trees concatenate with anything. -/
example (q : Str) (cs : List (TopLevelCommand Str)) :
    ParsesTo ascii (exampleProgram.text ++ q) cs ↔ ∃ cs2, ParsesTo ascii q cs2 ∧ cs = exampleProgram.ast ++ cs2 := by
  have e : exampleProgram.text = exampleProgram.text.dropLast ++ ['\n'] := by decide +kernel
  have := C42_scripts_concatenate ascii ascii_sane exampleProgram.text.dropLast q exampleProgram.ast
    (by decide +kernel) (by decide +kernel)
    (by rw [← e]; exact C39_round_trip ascii ascii_sane ascii_latin _ example_ok) cs
  rw [← this]
  conv_lhs => rw [e]
  simp

/-- The commands of a script, if it parses, with at most `n` commands. -/
def script : Nat → ParserIterator CIter DefaultBuilder → Option (List (TopLevelCommand Str))
  | 0, _ => none
  | n + 1, p =>
    match p.next with
    | (.ok (some (.ok c)), p') => (script n p').map (c :: ·)
    | (.ok none, _) => some []
    | _ => none

theorem script_sound {n : Nat} {p : ParserIterator CIter DefaultBuilder} {cs : List (TopLevelCommand Str)}
    (h : script n p = some cs) : ∃ p', Yields p (cs.map .ok) p' ∧ p'.next.1 = .ok none := by
  induction n generalizing p cs with
  | zero => cases h
  | succ n ih =>
    unfold script at h
    rcases hz : p.next with ⟨z, p'⟩
    rw [hz] at h
    rcases z with (_ | _ | c) | e | m | _
    · cases h
      exact ⟨p, .nil, by rw [hz]⟩
    · cases h
    · obtain ⟨cs', h1, rfl⟩ := Option.map_eq_some_iff.1 h
      obtain ⟨p2, h2, h3⟩ := ih h1
      exact ⟨p2, .cons hz h2, h3⟩
    all_goals cases h

/-- The number of commands of a script that parses. -/
def commandCount (src : String) : Option Nat :=
  (script 10 ⟨some (PSt.new (B := DefaultBuilder) (lex ascii src.toList) ())⟩).map List.length

theorem commandCount_sound {src : String} {n : Nat} (h : commandCount src = some n) :
    ∃ cs, ParsesTo ascii src.toList cs ∧ cs.length = n := by
  obtain ⟨cs, h1, h2⟩ := Option.map_eq_some_iff.1 h
  exact ⟨cs, script_sound h1, h2⟩

/-- The commands before the word `w`, if it is left after them. -/
def scriptBefore (w : Str) : Nat → PSt CIter DefaultBuilder → Option (List (TopLevelCommand Str))
  | 0, _ => none
  | n + 1, s =>
    match Method.linebreak.run s with
    | (.ok _, s') =>
      if s'.tokens = [.Name w] then some [] else
      match ParserIterator.next ⟨some s⟩ with
      | (.ok (some (.ok c)), ⟨some s'⟩) => (scriptBefore w n s').map (c :: ·)
      | _ => none
    | _ => none

theorem scriptBefore_sound {w : Str} {n : Nat} {s : PSt CIter DefaultBuilder} {cs : List (TopLevelCommand Str)}
    (h : scriptBefore w n s = some cs) :
    ∃ s' ns b, Yields ⟨some s⟩ (cs.map .ok) ⟨some s'⟩ ∧ Parses .linebreak s' ns [.Name w] b := by
  induction n generalizing s cs with
  | zero => cases h
  | succ n ih =>
    unfold scriptBefore at h
    split at h
    · rename_i ns s' hz
      split at h
      · rename_i hw
        cases h
        exact ⟨s, ns, s'.b, .nil, by rw [hz], by rw [hz]; exact hw, by rw [hz]⟩
      · split at h
        · rename_i c s' hz
          obtain ⟨cs', h1, rfl⟩ := Option.map_eq_some_iff.1 h
          obtain ⟨s2, ns, b, h2, h3⟩ := ih h1
          exact ⟨s2, ns, b, .cons hz h2, h3⟩
        · cases h
    · cases h

/-- A script with two here-documents, the first with a line that looks like the end of the second. -/
def hereScript : Str := "cat <<A; x | tr a b <<-B\nB\n$y\nA\n\tz\n\tB\n# done\necho".toList

theorem hereScript_leaves : ∃ cs1, cs1.length = 3 ∧ Leaves ascii (hereScript ++ '\n' :: "zz".toList) cs1 "zz".toList := by
  have key : ((scriptBefore "zz".toList 10 (PSt.new (I := CIter) (B := DefaultBuilder)
      (lex ascii (hereScript ++ '\n' :: "zz".toList)) ())).map List.length) = some 3 := by
    decide +kernel
  obtain ⟨cs1, h1, h2⟩ := Option.map_eq_some_iff.1 key
  exact ⟨cs1, h2, scriptBefore_sound h1⟩

example : ∃ cs1, cs1.length = 3 ∧ ∀ q cs, ParsesTo ascii (hereScript ++ '\n' :: q) cs ↔
    ∃ cs2, ParsesTo ascii q cs2 ∧ cs = cs1 ++ cs2 := by
  obtain ⟨cs1, h1, h2⟩ := hereScript_leaves
  exact ⟨cs1, h1, fun q cs => C42_heredoc_scripts_concatenate ascii ascii_sane hereScript
    q "zz".toList cs1 (by decide +kernel) (by decide +kernel) (by decide +kernel) (by decide +kernel) h2 cs⟩

/-- Both conditions are needed: a here-document that is cut off by the end of input reads on when
there is more, and a backslash joins the lines. -/
theorem C42_conditions_needed : ∀ p ∈ ["cat <<E", "a \\"], ∃ cs1 cs2 cs, ParsesTo ascii (p ++ "\n").toList cs1 ∧
    ParsesTo ascii "b\n".toList cs2 ∧ ParsesTo ascii (p ++ "\nb\n").toList cs ∧ cs ≠ cs1 ++ cs2 := by
  have key : ∀ p : String, commandCount (p ++ "\n") = some 1 → commandCount (p ++ "\nb\n") = some 1 → ∃ cs1 cs2 cs,
      ParsesTo ascii (p ++ "\n").toList cs1 ∧ ParsesTo ascii "b\n".toList cs2 ∧
      ParsesTo ascii (p ++ "\nb\n").toList cs ∧ cs ≠ cs1 ++ cs2 := by
    intro p h1 h2
    obtain ⟨cs1, h3, h4⟩ := commandCount_sound h1
    obtain ⟨cs2, h5, h6⟩ := commandCount_sound (src := "b\n") (n := 1) (by decide +kernel)
    obtain ⟨cs, h7, h8⟩ := commandCount_sound h2
    refine ⟨cs1, cs2, cs, h3, h5, h7, fun h => ?_⟩
    have := congrArg List.length h
    simp [h4, h6, h8] at this
  intro p hp
  rw [List.mem_cons, List.mem_singleton] at hp
  rcases hp with rfl | rfl
  · exact key _ (by decide +kernel) (by decide +kernel)
  · exact key _ (by decide +kernel) (by decide +kernel)

end Conch
