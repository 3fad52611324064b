import Verif.GramCmd
import Verif.PassCmd
/-!
# Exact runs of compound commands, functions and lists, without positions
-/
namespace Conch.Gram
open Conch

section
variable {B : Builder} {R : Rec AIter B}

/-! ## Groups -/

theorem Run.wordOrUnexpected {ws : List Str} {w : Str} {l r : List Token} {b : B.State} (hw : w ∈ ws)
    (h : Kw w l r) : Run (reservedWordOrUnexpected ws) l b w r b := by
  unfold reservedWordOrUnexpected
  exact .bind (.word hw h) .pure

theorem Run.wordOrIncomplete {ws : List Str} {w : Str} {l r : List Token} {b : B.State} {c p k} (hw : w ∈ ws)
    (h : Kw w l r) : Run (reservedWordOrIncomplete ws c p k) l b w r b := by
  unfold reservedWordOrIncomplete
  exact .bind (.word hw h) .pure

theorem commandGroup_run {cfg} {l r : List Token} {g} {b b' : B.State} (h : Run (R.group cfg) l b g r b')
    (hg : g.commands ≠ []) : Run (commandGroup R cfg) l b g r b' := by
  unfold commandGroup
  refine .bind h ?_
  rw [if_neg (by simpa using hg)]
  exact .pure

theorem subshell_run {ok} {l r : List Token} {g} {b b' : B.State}
    (h : Run (R.group parenDelim) l b g (.ParenClose :: r) b') (hg : g.commands = [] → ok = true) :
    Run (subshellInternal R ok) (.ParenOpen :: l) b g r b' := by
  unfold subshellInternal
  refine .getPos fun p => .eat (.bind h (.peekCons ?_))
  dsimp only
  rw [if_pos]
  · exact Run.next .pure
  · cases hc : g.commands with
    | nil => simp [hg hc]
    | cons _ _ => simp

theorem brace_run {l l1 l2 r : List Token} {g} {b b' : B.State} (hs : Skip l (.CurlyOpen :: l1))
    (he : EndsWord l1) (h : Run (R.group braceDelim) l1 b g l2 b') (hg : g.commands ≠ [])
    (hs2 : Skip l2 (.CurlyClose :: r)) (he2 : EndsWord r) : Run (braceGroup R) l b g r b' := by
  unfold braceGroup
  refine .getPos fun p => .bind (Run.token' (by simp [Token.isWs]) (List.mem_singleton.2 rfl) hs he) ?_
  refine .bind (commandGroup_run h hg) ?_
  exact .bind (Run.token (by simp [Token.isWs]) (List.mem_singleton.2 rfl) hs2 he2) .pure

theorem doGroup_run {l l1 l2 r : List Token} {g} {b b' : B.State} (hs : Kw DO l l1)
    (h : Run (R.group (wordDelim [DONE])) l1 b g l2 b') (hg : g.commands ≠ [])
    (hs2 : Kw DONE l2 r) : Run (doGroup R) l b g r b' := by
  unfold doGroup
  refine .getPos fun p => .bind (.wordOrUnexpected (List.mem_singleton.2 rfl) hs) ?_
  refine .bind (commandGroup_run h hg) ?_
  exact .bind (.wordOrIncomplete (List.mem_singleton.2 rfl) hs2) .pure

/-! ## Delimiters -/

theorem Delims.Proper.notWs {cfg : Conch.Delims} (h : Delims.Proper cfg) : ∀ u ∈ cfg.reservedTokens, u.isWs = false := by
  intro u hu
  have := (h u (by simp [hu])).1
  cases u <;> first | rfl | exact absurd rfl (this _)

theorem Delims.Proper.noBlank {cfg : Conch.Delims} (h : Delims.Proper cfg) {l : List Token} (hd : AtDelim cfg l) : NoBlank l := by
  rcases hd with ⟨t, ht, r, rfl⟩ | ⟨w, -, r, hk⟩ | ⟨t, ht, r, rfl, -⟩
  · have := h t (by simp [ht])
    constructor
    · rintro w r h; cases h; exact this.1 _ rfl
    · rintro r h; cases h; exact this.2.1 rfl
  · obtain ⟨rfl | rfl, -⟩ := hk <;> constructor <;> rintro _ <;> simp
  · have := h t (by simp [ht])
    constructor
    · rintro w r h; cases h; exact this.1 _ rfl
    · rintro r h; cases h; exact this.2.1 rfl

theorem Delims.Proper.noLine {cfg : Conch.Delims} (h : Delims.Proper cfg) {l : List Token} (hd : AtDelim cfg l) :
    NoLineStart l := by
  rcases hd with ⟨t, ht, r, rfl⟩ | ⟨w, -, r, hk⟩ | ⟨t, ht, r, rfl, -⟩
  · have := h t (by simp [ht])
    intro r
    exact ⟨by rintro h; cases h; exact this.2.2.1 rfl, by rintro h; cases h; exact this.2.2.2 rfl⟩
  · obtain ⟨rfl | rfl, -⟩ := hk <;> intro r <;> simp
  · have := h t (by simp [ht])
    intro r
    exact ⟨by rintro h; cases h; exact this.2.2.1 rfl, by rintro h; cases h; exact this.2.2.2 rfl⟩

theorem Skip.unique {l r r' : List Token} (h : Skip l r) (h' : Skip l r') : r = r' := by
  obtain ⟨bs, rfl, hb, hn⟩ := h
  obtain ⟨bs', he, hb', hn'⟩ := h'
  induction hb generalizing bs' with
  | nil =>
    cases hb' with
    | nil => exact he
    | ws => exact absurd he (hn.1 _ _)
    | escaped => exact absurd he (hn.2 _)
  | ws _ ih =>
    cases hb' with
    | nil => rw [List.nil_append] at he; subst he; exact absurd rfl (hn'.1 _ _)
    | ws hb' => simp only [List.cons_append, List.cons.injEq] at he; exact ih _ he.2 hb'
    | escaped => simp at he
  | escaped _ ih =>
    cases hb' with
    | nil => rw [List.nil_append] at he; subst he; exact absurd rfl (hn'.2 _)
    | ws => simp at he
    | escaped hb' => simp only [List.cons_append, List.cons.injEq] at he; exact ih _ he.2.2 hb'

theorem Skip.eq {l r : List Token} (h : Skip l r) (hl : NoBlank l) : l = r := (Skip.refl hl).unique h

open Classical in
/-- `found_delim` on tokens that may start with blanks: it skips all blanks or none, and what it
finds is a delimiter. -/
theorem foundDelim_run {cfg : Delims} (hp : Delims.Proper cfg) {l r : List Token} {b : B.State} (hs : Skip l r) :
    ∃ found l0, Run (foundDelim cfg) l b found l0 b ∧ Skip l0 r ∧ (found = true → l0 = r ∧ AtDelim cfg r) ∧
      (NoBlank l → l0 = r ∧ (found = true ↔ AtDelim cfg r)) := by
  -- the exact tokens
  have hex : Run (B := B) (if cfg.exactTokens.isEmpty then pure false
      else do
        let p ← peek
        pure (p.any cfg.exactTokens.contains) : P AIter B Bool) l b
        (l.head?.any cfg.exactTokens.contains) l b := by
    split
    · rename_i h
      have : cfg.exactTokens = [] := by simpa using h
      rw [this]
      have : (l.head?.any ([] : List Token).contains) = false := by cases l <;> rfl
      rw [this]
      exact .pure
    · exact .peek .pure
  by_cases h1 : ∃ t ∈ cfg.exactTokens, ∃ r, l = t :: r
  · have hd : AtDelim cfg l := .inl h1
    have := hs.eq (Delims.Proper.noBlank hp hd)
    subst this
    refine ⟨true, l, ?_, hs, fun _ => ⟨rfl, hd⟩, fun _ => ⟨rfl, fun _ => hd, fun _ => rfl⟩⟩
    unfold foundDelim
    obtain ⟨t, ht, r, rfl⟩ := h1
    refine .bind hex ?_
    rw [if_pos (by simpa using ht)]
    exact .pure
  have hex' : (l.head?.any cfg.exactTokens.contains) = false := by
    cases l with
    | nil => rfl
    | cons t l =>
      simp only [List.head?_cons, Option.any_some, List.contains_eq_mem, decide_eq_false_iff_not]
      exact fun h => h1 ⟨t, h, l, rfl⟩
  rw [hex'] at hex
  -- the reserved words
  by_cases h2 : ∃ w ∈ cfg.reservedWords, ∃ r', Keyword w r r'
  · refine ⟨true, r, ?_, .refl hs.noBlank, fun _ => ⟨rfl, .inr (.inl h2)⟩,
      fun _ => ⟨rfl, fun _ => .inr (.inl h2), fun _ => rfl⟩⟩
    unfold foundDelim
    obtain ⟨w, hw, r', hk⟩ := h2
    exact .bind hex (.bind (.peekWord hw hs hk) .pure)
  have hw : ∃ l1, Run (peekReservedWord cfg.reservedWords) l b none l1 b ∧ Skip l1 r ∧ (NoBlank l → l1 = r) := by
    by_cases hne : cfg.reservedWords = []
    · refine ⟨l, ?_, hs, fun h => hs.eq h⟩
      rw [hne]
      exact .pure
    · exact ⟨r, .peekNoWord hne hs (fun w hw r' hk => h2 ⟨w, hw, r', hk⟩), .refl hs.noBlank, fun _ => rfl⟩
  obtain ⟨l1, hr1, hs1, he1⟩ := hw
  -- the reserved tokens
  by_cases h3 : ∃ t ∈ cfg.reservedTokens, ∃ r', r = t :: r' ∧ EndsWord r'
  · refine ⟨true, r, ?_, .refl hs.noBlank, fun _ => ⟨rfl, .inr (.inr h3)⟩,
      fun _ => ⟨rfl, fun _ => .inr (.inr h3), fun _ => rfl⟩⟩
    unfold foundDelim
    obtain ⟨t, ht, r', rfl, he⟩ := h3
    exact .bind hex (.bind hr1 (.bind (.peekToken (Delims.Proper.notWs hp) ht hs1 he) .pure))
  have ht : ∃ l2, Run (peekReservedToken cfg.reservedTokens) l1 b none l2 b ∧ Skip l2 r ∧ (NoBlank l → l2 = r) := by
    by_cases hne : cfg.reservedTokens = []
    · refine ⟨l1, ?_, hs1, he1⟩
      rw [hne]
      exact .pure
    · exact ⟨r, .peekNoToken hne (Delims.Proper.notWs hp) hs1 (fun t ht r' he hk => h3 ⟨t, ht, r', he, hk⟩),
        .refl hs.noBlank, fun _ => rfl⟩
  obtain ⟨l2, hr2, hs2, he2⟩ := ht
  refine ⟨false, l2, .bind hex (.bind hr1 (.bind hr2 .pure)), hs2, by simp, fun hn => ?_⟩
  refine ⟨he2 hn, by simp, ?_⟩
  have := hs.eq hn
  subst this
  rintro (h | h | h)
  · exact absurd h h1
  · exact absurd h h2
  · exact absurd h h3

theorem Lines.skip {l l0 r r' : List Token} {ns} (h : Lines l ns r) (hl : Skip l r') (hl0 : Skip l0 r') :
    Lines l0 ns r := by
  have key : ∀ {n l'}, Line l n l' → Line l0 n l' := by
    intro n l' hln
    obtain ⟨bs, rfl, hb, hn⟩ := hl
    obtain ⟨bs0, rfl, hb0, -⟩ := hl0
    have app : ∀ {x y : List Token}, Blanks x → Blanks y → Blanks (x ++ y) := by
      intro x y hx hy
      induction hx with
      | nil => exact hy
      | ws _ ih => exact .ws ih
      | escaped _ ih => exact .escaped ih
    generalize he : bs ++ r' = l at hln
    cases hln with
    | @newline cs _ hc =>
      have := Skip.unique ⟨bs, rfl, hb, hn⟩ (l := bs ++ r') (r' := .Newline :: l') ⟨cs, he, hc, by constructor <;> simp⟩
      subst this
      exact .newline hb0
    | @comment cs ds _ hc hd =>
      have := Skip.unique ⟨bs, rfl, hb, hn⟩ (l := bs ++ r') (r' := .Pound :: ds ++ .Newline :: l')
        ⟨cs, by simpa using he, hc, by constructor <;> simp⟩
      subst this
      have := Line.comment (r := l') hb0 hd
      simpa using this
    | @lastComment cs ds hc hd =>
      have := Skip.unique ⟨bs, rfl, hb, hn⟩ (l := bs ++ r') (r' := .Pound :: ds)
        ⟨cs, by simpa using he, hc, by constructor <;> simp⟩
      subst this
      exact .lastComment hb0 hd
  cases h with
  | nil h hn => rw [h.unique hl]; rw [h.unique hl] at hn; exact .nil hl0 hn
  | cons h hs => exact .cons (key h) hs

theorem Lines.skipped {l r : List Token} {ns} (h : Lines l ns r) : ∃ r', Skip l r' ∧ (NoLineStart r' → ns = [] ∧ r = r') := by
  cases h with
  | nil h hn => exact ⟨r, h, fun _ => ⟨rfl, rfl⟩⟩
  | cons h hs =>
    cases h with
    | newline hb => exact ⟨_, ⟨_, rfl, hb, by constructor <;> simp⟩, fun h => absurd rfl (h _).1⟩
    | @comment bs cs r hb hc =>
      exact ⟨.Pound :: cs ++ .Newline :: _, ⟨_, by simp; rfl, hb, by constructor <;> simp⟩, fun h => absurd rfl (h _).2⟩
    | lastComment hb hc => exact ⟨_, ⟨_, rfl, hb, by constructor <;> simp⟩, fun h => absurd rfl (h _).2⟩

theorem Lines.noBlank {l r : List Token} {ns} (h : Lines l ns r) : NoBlank r := by
  induction h with
  | nil h _ => exact h.noBlank
  | cons _ _ ih => exact ih

theorem group_end {cfg : Delims} (hp : Delims.Proper cfg) {l r : List Token} {ns acc} {b : B.State}
    (h : Lines l ns r) (hd : AtDelim cfg r ∨ r = []) :
    Run (groupBody R cfg acc) l b (.done ⟨acc, ns⟩) r b := by
  obtain ⟨r', hs, hr'⟩ := h.skipped
  obtain ⟨f, l0, hf, hs0, hft, -⟩ := foundDelim_run (b := b) hp hs
  unfold groupBody
  refine .bind hf ?_
  by_cases hf' : f = true
  · obtain ⟨rfl, hd'⟩ := hft hf'
    obtain ⟨rfl, rfl⟩ := hr' (Delims.Proper.noLine hp hd')
    rw [if_pos hf']
    exact .pure
  · rw [if_neg hf']
    refine .bind (.linebreak (h.skip hs hs0)) ?_
    have hn := h.noBlank
    obtain ⟨f, l0, hf, hs0, hft, hfi⟩ := foundDelim_run (b := b) hp (.refl hn)
    obtain ⟨rfl, hfi⟩ := hfi hn
    refine .bind (a := true) (r := l0) (b' := b) ?_ .pure
    refine .bind hf ?_
    by_cases hf' : f = true
    · rw [if_pos hf']; exact .pure
    · rw [if_neg hf']
      obtain rfl : l0 = [] := hd.resolve_left fun h => hf' (hfi.2 h)
      exact .peekNil .pure

theorem group_cons {cfg : Conch.Delims} (hp : Delims.Proper cfg) {l l1 r : List Token} {ns acc c} {b b' : B.State}
    (h : Lines l ns l1) (hd : ¬ AtDelim cfg l1) (hne : l1 ≠ [])
    (hc : Run (completeCommandWithComments R ns) l1 b c r b') :
    Run (groupBody R cfg acc) l b (.cont (acc ++ [c])) r b' := by
  obtain ⟨r', hs, hr'⟩ := h.skipped
  obtain ⟨f, l0, hf, hs0, hft, -⟩ := foundDelim_run (b := b) hp hs
  unfold groupBody
  refine .bind hf ?_
  by_cases hf' : f = true
  · obtain ⟨rfl, hd'⟩ := hft hf'
    obtain ⟨rfl, rfl⟩ := hr' (Delims.Proper.noLine hp hd')
    exact absurd hd' hd
  · rw [if_neg hf']
    refine .bind (.linebreak (h.skip hs hs0)) ?_
    have hn := h.noBlank
    obtain ⟨f, l0, hf, hs0, hft, hfi⟩ := foundDelim_run (b := b) hp (.refl hn)
    obtain ⟨rfl, hfi⟩ := hfi hn
    refine .bind (a := false) (r := l0) (b' := b) ?_ (.bind hc .pure)
    refine .bind hf ?_
    rw [if_neg fun h => hd (hfi.1 h)]
    cases l0 with
    | nil => exact absurd rfl hne
    | cons t l0 => exact .peekCons .pure

end
end Conch.Gram
