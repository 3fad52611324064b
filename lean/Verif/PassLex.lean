import Verif.Hoare
import Verif.ExactLex
/-!
# The pass over all functions: blanks, comments, reserved words
-/
namespace Conch
open Spec

section
variable {B : Builder} {T : Theory B} {α β : Type} {s : PSt AIter B}

theorem Theory.suffix {xs r : List PTok} {e : SourcePos} (h : T.J ⟨xs ++ r, e⟩) : T.J ⟨r, e⟩ := by
  induction xs with
  | nil => exact h
  | cons x xs ih => exact ih (T.next h)

theorem fr_suffix {xs r : List PTok} {e : SourcePos} {b : B.State} (hi : T.Inv (st (xs ++ r) e b)) :
    T.Fr (st (xs ++ r) e b) (st r e b) :=
  ⟨T.suffix hi.j, hi.k, rfl, by simp [PSt.len], .inr (List.suffix_append _ _)⟩

theorem tr_skipWhitespace (hi : T.Inv s) :
    T.Tr skipWhitespace s (fun _ s' => NoBlank s'.it.rest ∧
      ∃ bs, Blanks bs ∧ s.it.rest = bs ++ s'.it.rest) := by
  obtain ⟨⟨l, e⟩, b⟩ := s
  obtain ⟨bs, r, rfl, hb, hr⟩ := blank_split l
  exact tr_of_eq (skipWhitespace_eq hb hr) (fr_suffix hi) ⟨hr, bs, hb, rfl⟩

theorem Spec.Line.suffix {l rest : List PTok} {n : Nl} (h : Line l n rest) :
    ∃ xs, l = xs ++ rest := by
  cases h with
  | @newline bs q rest hb => exact ⟨bs ++ [(q, .Newline)], by simp⟩
  | @comment bs q cs r rest hb hc => exact ⟨bs ++ (q, .Pound) :: cs ++ [(r, .Newline)], by simp⟩
  | lastComment hb hc => exact ⟨_, (List.append_nil _).symm⟩

theorem tr_newline (hi : T.Inv s) :
    T.Tr newline s (fun a s' => (a ≠ none → s'.len < s.len) ∧
      (a = none → NoBlank s'.it.rest ∧ NoLineStart s'.it.rest)) := by
  obtain ⟨⟨l, e⟩, b⟩ := s
  rcases line_or_not l with ⟨n, rest, h⟩ | ⟨bs, r, rfl, hb, hr, hn⟩
  · have hlt := h.lt
    obtain ⟨xs, hxs⟩ := h.suffix
    refine tr_of_eq (newline_eq_line h) ?_ ⟨fun _ => hlt, by simp⟩
    subst hxs; exact fr_suffix hi
  · exact tr_of_eq (newline_eq_none hb hr hn) (fr_suffix hi) ⟨by simp, fun _ => ⟨hr, hn⟩⟩

theorem Spec.Lines.suffix {l rest : List PTok} {ns : List Nl} (h : Lines l ns rest) :
    ∃ xs, l = xs ++ rest := by
  induction h with
  | nil => exact ⟨[], rfl⟩
  | cons h _ ih =>
    obtain ⟨xs, h1⟩ := h.suffix
    obtain ⟨ys, h2⟩ := ih
    exact ⟨xs ++ ys, by rw [h1, h2, List.append_assoc]⟩

theorem tr_linebreak (hi : T.Inv s) :
    T.Tr linebreak s (fun _ s' => NoBlank s'.it.rest ∧ NoLineStart s'.it.rest) := by
  obtain ⟨⟨l, e⟩, b⟩ := s
  obtain ⟨ns, bs, r, h, hb, hr, hn⟩ := lines_split l
  obtain ⟨xs, hxs⟩ := h.suffix
  rw [← List.append_assoc] at hxs
  refine tr_of_eq (linebreak_eq h hb hr hn) ?_ ⟨hr, hn⟩
  subst hxs; exact fr_suffix hi

/-- What `peek_reserved_word` tells. -/
structure PeekedWord (ws : List Str) (s : PSt AIter B) (a : Option Str) (s' : PSt AIter B) :
    Prop where
  found : ∀ w, a = some w → w ∈ ws ∧ NoBlank s'.it.rest ∧ WordAt s'.it.rest w
  missing : a = none → ws ≠ [] → NoBlank s'.it.rest ∧ ∀ w ∈ ws, ¬ WordAt s'.it.rest w
  skipped : ∃ bs, Blanks bs ∧ s.it.rest = bs ++ s'.it.rest

theorem Spec.Blanks.nil_of {bs r : List PTok} (hb : Blanks bs) (h : NoBlank (bs ++ r)) :
    bs = [] := by
  cases hb with
  | nil => rfl
  | ws h' => exact absurd rfl (h.1 _ _ _)
  | escaped h' => exact absurd rfl (h.2 _ _ _)

theorem PeekedWord.same {ws : List Str} {s s' : PSt AIter B} {a : Option Str}
    (h : PeekedWord ws s a s') (hn : NoBlank s.it.rest) : s'.it.rest = s.it.rest := by
  obtain ⟨bs, h1, h2⟩ := h.skipped
  rw [h2] at hn
  rw [h2, h1.nil_of hn, List.nil_append]

theorem PeekedWord.keyword {ws : List Str} {s s' : PSt AIter B} {w : Str}
    (h : PeekedWord ws s (some w) s') : KeywordAt ws s.it.rest s'.it.rest.tail := by
  obtain ⟨bs, h1, h2⟩ := h.skipped
  obtain ⟨h3, -, p, r, h4, h5⟩ := h.found w rfl
  refine ⟨bs, p, w, h3, h1, ?_, ?_⟩
  · rcases h4 with h4 | h4 <;> simp [h2, h4]
  · rcases h4 with h4 | h4 <;> simpa [h4]

theorem tr_peekReservedWord (hi : T.Inv s) (ws : List Str) :
    T.Tr (peekReservedWord ws) s (PeekedWord ws s) := by
  by_cases hne : ws = []
  · subst hne; exact tr_pure hi ⟨by simp, by simp, [], .nil, rfl⟩
  obtain ⟨⟨l, e⟩, b⟩ := s
  obtain ⟨bs, r, rfl, hb, hr⟩ := blank_split l
  refine tr_of_eq (peekReservedWord_eq hne hb hr) (fr_suffix hi) ?_
  refine ⟨?_, ?_, bs, hb, rfl⟩
  · intro w h
    obtain ⟨h1, h2⟩ := (mpReservedWord_val ws _ r w).1 h
    exact ⟨h1, hr, h2⟩
  · intro h _
    refine ⟨hr, fun w hw hat => ?_⟩
    rw [(mpReservedWord_val ws _ r w).2 ⟨hw, hat⟩] at h
    cases h

theorem wordAt_len {w : Str} (h : WordAt s.it.rest w) : 0 < s.len := by
  obtain ⟨p, r, h | h, -⟩ := h <;> simp [PSt.len, h]

theorem wordAt_peek {it : AIter} {w : Str} (h : WordAt it.rest w) : it.peek ≠ none := by
  obtain ⟨p, r, h | h, -⟩ := h <;> simp [AIter.peek, h]

/-- What `reserved_word` tells. -/
structure ReadWord (ws : List Str) (s : PSt AIter B) (a : Option Str) (s' : PSt AIter B) :
    Prop where
  found : ∀ w, a = some w → w ∈ ws ∧ s'.len < s.len ∧ KeywordAt ws s.it.rest s'.it.rest
  missing : a = none → ws ≠ [] → NoBlank s'.it.rest ∧ ∀ w ∈ ws, ¬ WordAt s'.it.rest w

theorem tr_reservedWord (hi : T.Inv s) (ws : List Str) :
    T.Tr (reservedWord ws) s (ReadWord ws s) := by
  unfold reservedWord
  refine tr_bind (tr_peekReservedWord hi ws) ?_
  rintro (_ | w) s1 f1 h1
  · exact tr_pure f1.inv ⟨by simp, h1.missing⟩
  · refine tr_bind (tr_next' f1.inv) ?_
    rintro a s2 f2 ⟨⟨rfl, h2⟩, ht⟩
    refine tr_pure f2.inv ⟨?_, by simp⟩
    intro w' hw; cases hw
    obtain ⟨h3, -, h4⟩ := h1.found w rfl
    exact ⟨h3, Nat.lt_of_lt_of_le (h2 (wordAt_peek h4)) f1.len, ht ▸ h1.keyword⟩

/-- After `peek_reserved_word` found a word, `reserved_word` finds it. -/
theorem tr_reservedWord_of_peek (hi : T.Inv s) {ws : List Str} {w : Str} (hw : w ∈ ws)
    (hr : NoBlank s.it.rest) (h : WordAt s.it.rest w) :
    T.Tr (reservedWord ws) s (fun a s' => a = some w ∧ s'.len < s.len) := by
  obtain ⟨⟨l, e⟩, b⟩ := s
  unfold reservedWord
  refine tr_bind (tr_of_eq (Q := fun a s' => a = some w ∧ s' = st l e b)
    (peekReservedWord_some (bs := []) .nil hr hw h) hi.refl ⟨rfl, rfl⟩) ?_
  rintro _ _ f1 ⟨rfl, rfl⟩
  refine tr_bind (tr_next f1.inv) ?_
  rintro a s2 f2 ⟨rfl, h2⟩
  exact tr_pure f2.inv ⟨rfl, h2 (wordAt_peek h)⟩

/-- What `peek_reserved_token` tells. -/
def PeekedToken (ts : List Token) (s : PSt AIter B) (a : Option Token) (s' : PSt AIter B) : Prop :=
  ∀ t, a = some t → t ∈ ts ∧ s'.it.peek = some t ∧
    ∃ bs q r, Blanks bs ∧ s.it.rest = bs ++ (q, t) :: r

theorem Spec.Blanks.append {xs ys : List PTok} (h : Blanks xs) (h' : Blanks ys) :
    Blanks (xs ++ ys) := by
  induction h with
  | nil => exact h'
  | ws _ ih => exact .ws ih
  | escaped _ ih => exact .escaped ih

theorem PeekedToken.skip {ts : List Token} {s s1 s' : PSt AIter B} {a : Option Token}
    (h : PeekedToken ts s1 a s') (h' : ∃ bs, Blanks bs ∧ s.it.rest = bs ++ s1.it.rest) :
    PeekedToken ts s a s' := by
  intro t ht
  obtain ⟨h1, h2, bs, q, r, h3, h4⟩ := h t ht
  obtain ⟨bs', h5, h6⟩ := h'
  exact ⟨h1, h2, bs' ++ bs, q, r, h5.append h3, by rw [h6, h4, List.append_assoc]⟩

theorem tr_peekReservedTokenTries (ts : List Token) (n : Nat) : ∀ {s : PSt AIter B}, T.Inv s →
    T.Tr (peekReservedTokenTries ts n) s (PeekedToken ts s) := by
  induction n with
  | zero => intro s hi; exact tr_pure hi (by simp [PeekedToken])
  | succ n ih =>
    intro s hi
    unfold peekReservedTokenTries
    rw [tr_lookahead (mpReservedToken_it ts _)]
    cases h : (mpReservedToken (I := AIter) ts (AMultipeek.mk s.it s.it.toks)).1 with
    | none =>
      refine tr_bind (tr_skipWhitespace hi) ?_
      rintro a s1 f1 ⟨-, hs⟩
      exact (ih f1.inv).mono fun _ _ _ h => h.skip hs
    | some o =>
      refine tr_pure hi ?_
      rintro t rfl
      obtain ⟨h1, p, r, h2, -⟩ := (mpReservedToken_val ts s.it s.it.rest t).1 h
      exact ⟨h1, by simp [AIter.peek, h2], [], p, r, .nil, h2⟩

theorem tr_peekReservedToken (hi : T.Inv s) (ts : List Token) :
    T.Tr (peekReservedToken ts) s (PeekedToken ts s) := by
  unfold peekReservedToken
  split
  · exact tr_pure hi (by simp [PeekedToken])
  · split
    · exact tr_peekReservedTokenTries ts 2 hi
    · refine tr_bind (tr_skipWhitespace hi) ?_
      rintro a s1 f1 ⟨-, hs⟩
      exact (tr_peekReservedTokenTries ts 1 f1.inv).mono fun _ _ _ h => h.skip hs

theorem tr_reservedToken' (hi : T.Inv s) (ts : List Token) :
    T.Tr (reservedToken' ts) s (fun a s' => ∀ t, a = some t → t ∈ ts ∧ s'.len < s.len ∧
      ∃ bs q r, Blanks bs ∧ s.it.rest = bs ++ (q, t) :: r) := by
  unfold reservedToken'
  refine tr_bind (tr_peekReservedToken hi ts) ?_
  rintro (_ | t) s1 f1 h1
  · rw [tr_peek]
    cases h : s1.it.peek with
    | none => exact tr_pure f1.inv (by simp)
    | some t =>
      simp only
      split
      · refine tr_bind (tr_next f1.inv) ?_
        rintro a s2 f2 -
        exact tr_pure f2.inv (by simp)
      · exact tr_pure f1.inv (by simp)
  · refine tr_bind (tr_next f1.inv) ?_
    rintro a s2 f2 ⟨rfl, h2⟩
    obtain ⟨h3, h4, h5⟩ := h1 t rfl
    rw [h4] at h2 ⊢
    refine tr_pure f2.inv ?_
    intro t' ht'; cases ht'
    exact ⟨h3, Nat.lt_of_lt_of_le (h2 (by simp)) f1.len, h5⟩

theorem tr_reservedToken (hi : T.Inv s) (ts : List Token) :
    T.Tr (reservedToken ts) s (fun a s' => a ∈ ts ∧ s'.len < s.len ∧
      ∃ bs q r, Blanks bs ∧ s.it.rest = bs ++ (q, a) :: r) := by
  unfold reservedToken
  refine tr_bind (tr_reservedToken' hi ts) ?_
  rintro (_ | t) s1 f1 h1
  · exact tr_unexpected f1.inv
  · exact tr_pure f1.inv (h1 t rfl)

end
end Conch
