import Verif.Layout
import Verif.RoundTrip
/-!
# Lexing blanks, comments and what follows words (C47)
-/
namespace Conch
open Spec Gram

section
variable {cc : CharClass}

/-! ## First tokens -/

theorem first_op {c : Char} (hc : opStart c) (x : Str) :
    ∃ p ∈ operators, p.1.head? = some c ∧ ∃ l, lex cc (c :: x) = p.2 :: l := by
  have hb : c ≠ '\\' := by
    rintro rfl
    exact absurd hc (by rw [opStart_iff]; decide)
  rcases lexes_cons_inv (lex_lexes cc (c :: x)) with ⟨rfl, -⟩ | ⟨_, _, _, _, rfl, -⟩ |
      ⟨o, s, t, ts, h1, h2, h3, h4, -⟩ | ⟨_, _, _, -, h1, -⟩ | ⟨_, _, _, h1, -⟩ | ⟨_, _, _, h1, -⟩
  · exact absurd rfl hb
  · exact absurd rfl hb
  · refine ⟨(o, t), h4.1, ?_, ts, h3⟩
    obtain ⟨d, ds, r, rfl, -, h⟩ := longestOp_head h4
    cases h; rfl
  · exact absurd hc h1
  · exact absurd hc h1.2.1
  · exact absurd hc h1.2.1

theorem blank_not_op (hs : cc.Sane) {c : Char} (hc : Blank cc c) : ¬ opStart c ∧ c ≠ '\\' := by
  constructor
  · intro h
    have := (hs.op c (.inl h)).2 hc.2
    rw [hc.1] at this; cases this
  · rintro rfl
    have := (hs.op '\\' (.inr rfl)).2 (by decide)
    rw [hc.1] at this; cases this

theorem first_blank (hs : cc.Sane) {c : Char} (hc : Blank cc c) (x : Str) :
    ∃ w l, lex cc (c :: x) = .Whitespace w :: l := by
  obtain ⟨h1, h2⟩ := blank_not_op hs hc
  rcases lexes_cons_inv (lex_lexes cc (c :: x)) with ⟨rfl, -⟩ | ⟨_, _, _, _, rfl, -⟩ |
      ⟨o, s, t, ts, h, -⟩ | ⟨_, _, _, -, -, -, -, h, -⟩ | ⟨_, _, _, h, -⟩ | ⟨_, _, _, h, -⟩
  · exact absurd rfl h2
  · exact absurd rfl h2
  · exact absurd h h1
  · exact ⟨_, _, h⟩
  · have := h.2.2; rw [hc.1] at this; cases this
  · have := h.2.2; rw [hc.1] at this; cases this


theorem blank_split_lex (hs : cc.Sane) {c : Char} (hc : Blank cc c) (x : Str) :
    (∃ w l, lex cc x = .Whitespace w :: l ∧ lex cc (c :: x) = .Whitespace (c :: w) :: l) ∨
      (∀ w l, lex cc x ≠ .Whitespace w :: l) ∧ lex cc (c :: x) = .Whitespace [c] :: lex cc x := by
  have hone : (∀ d, x.head? = some d → ¬ Blank cc d) → lex cc (c :: x) = .Whitespace [c] :: lex cc x := by
    intro h
    refine lex_cons hs (t := .Whitespace [c]) ⟨by simp, ?_⟩ (by simp) h
    intro d hd; rw [List.mem_singleton] at hd; subst hd; exact hc
  cases x with
  | nil => exact .inr ⟨by rw [lex_nil]; simp, hone (by simp)⟩
  | cons d x =>
    by_cases hd : Blank cc d
    · obtain ⟨h1, h2⟩ := blank_not_op hs hd
      rcases lexes_cons_inv (lex_lexes cc (d :: x)) with ⟨rfl, -⟩ | ⟨_, _, _, _, rfl, -⟩ |
          ⟨o, s, t, ts, h, -⟩ | ⟨run, s, ts, -, -, -, g1, g2, g3, g4⟩ | ⟨_, _, _, h, -⟩ | ⟨_, _, _, h, -⟩
      · exact absurd rfl h2
      · exact absurd rfl h2
      · exact absurd h h1
      · refine .inl ⟨_, _, g2, ?_⟩
        subst g1
        have := lex_cons hs (t := .Whitespace (c :: d :: run)) (s := s) ⟨by simp, ?_⟩ (by simp) g3.2
        · rw [(C03_tokens_iff_grammar _ _ _).2 g4] at this
          exact this
        · intro e he
          rcases List.mem_cons.1 he with rfl | he
          · exact hc
          · rcases List.mem_cons.1 he with rfl | he
            · exact hd
            · exact g3.1 e he
      · have := h.2.2; rw [hd.1] at this; cases this
      · have := h.2.2; rw [hd.1] at this; cases this
    · refine .inr ⟨?_, hone (by intro e he; cases he; exact hd)⟩
      intro w l e
      have h1 := C01_concat_tokens cc (d :: x)
      have h2 := C02_token_shapes cc (d :: x)
      rw [e] at h1 h2
      obtain ⟨hne, hw⟩ := h2 _ (List.mem_cons_self ..)
      obtain ⟨d', w, rfl⟩ := List.exists_cons_of_ne_nil hne
      rw [concatTokens_cons] at h1
      cases h1
      exact hd (hw d (by simp))

theorem filler_lex (hs : cc.Sane) {g rest : Str} (hg : Filler cc g) (hr : NB cc rest) :
    ∃ bs, lex cc (g ++ rest) = bs ++ lex cc rest ∧ Blanks bs := by
  induction hg with
  | nil => exact ⟨[], rfl, .nil⟩
  | @blank c s hc _ ih =>
    obtain ⟨bs, h1, h2⟩ := ih
    rcases blank_split_lex hs hc (s ++ rest) with ⟨w, l, e1, e2⟩ | ⟨e1, e2⟩
    · rw [h1] at e1
      cases h2 with
      | nil => exact absurd e1 (hr.1 _ _)
      | @ws w' bs hb =>
        cases e1
        exact ⟨.Whitespace (c :: w) :: bs, e2, .ws hb⟩
      | escaped => cases e1
    · exact ⟨.Whitespace [c] :: bs, by rw [List.cons_append, e2, h1]; rfl, .ws h2⟩
  | @escaped s _ ih =>
    obtain ⟨bs, h1, h2⟩ := ih
    refine ⟨.Backslash :: .Newline :: bs, ?_, .escaped h2⟩
    have : lex cc ['\n'] = [.Newline] := by rw [lex_newline, lex_nil]
    rw [List.cons_append, List.cons_append, C03_escape_protects_one, this, h1]; rfl

theorem gap_skip (hs : cc.Sane) {g rest : Str} (hg : Gap cc g) (hr : NB cc rest) :
    Skip (lex cc (g ++ rest)) (lex cc rest) := by
  obtain ⟨bs, h1, h2⟩ := filler_lex hs hg.1 hr
  exact ⟨bs, h1, h2, hr⟩

theorem gap_cons {g : Str} (hg : Gap cc g) (hn : g ≠ []) : ∃ c r, g = c :: r ∧ Blank cc c ∧ Filler cc r := by
  obtain ⟨h1, h2⟩ := hg
  cases h1 with
  | nil => exact absurd rfl hn
  | blank h h' => exact ⟨_, _, rfl, h, h'⟩
  | escaped => exact absurd rfl h2

theorem gap_ws (hs : cc.Sane) {g rest : Str} (hg : Gap cc g) (hn : g ≠ []) (hr : NB cc rest) :
    ∃ w l, lex cc (g ++ rest) = .Whitespace w :: l ∧ Skip l (lex cc rest) := by
  obtain ⟨bs, h1, h2⟩ := filler_lex hs hg.1 hr
  obtain ⟨c, r, rfl, hc, -⟩ := gap_cons hg hn
  obtain ⟨w, l, e⟩ := first_blank hs hc (r ++ rest)
  refine ⟨w, l, e, ?_⟩
  rw [List.cons_append, e] at h1
  cases h2 with
  | nil => exact absurd h1.symm (hr.1 _ _)
  | ws hb => cases h1; exact ⟨_, rfl, hb, hr⟩
  | escaped => cases h1

theorem filler_append {g h : Str} (hg : Filler cc g) (hh : Filler cc h) : Filler cc (g ++ h) := by
  induction hg with
  | nil => exact hh
  | blank h _ ih => exact .blank h ih
  | escaped _ ih => exact .escaped ih

theorem gap_append {g h : Str} (hg : Gap cc g) (hh : Gap cc h) : Gap cc (g ++ h) := by
  refine ⟨filler_append hg.1 hh.1, ?_⟩
  cases g with
  | nil => exact hh.2
  | cons c g => exact hg.2

theorem gap_nil : Gap cc [] := ⟨.nil, by simp⟩

theorem layout_gap {l g : Str} (hl : Layout cc l) (hg : Gap cc g) : Layout cc (l ++ g) := by
  induction hl with
  | gap h => exact .gap (gap_append h hg)
  | newline h _ ih => rw [List.append_assoc]; exact .newline h ih
  | comment h1 h2 _ ih =>
    rw [List.append_assoc, List.cons_append, List.append_assoc]
    exact .comment h1 h2 ih

/-! ## Lines -/

theorem skip_append {bs l r : List Token} (hb : Blanks bs) (h : Skip l r) : Skip (bs ++ l) r := by
  obtain ⟨bs', rfl, h1, h2⟩ := h
  refine ⟨bs ++ bs', by simp, ?_, h2⟩
  induction hb with
  | nil => exact h1
  | ws _ ih => exact .ws ih
  | escaped _ ih => exact .escaped ih

theorem nb_newline (x : Str) : NB cc ('\n' :: x) := by rw [NB, lex_newline]; simp [Gram.NoBlank]

theorem lex_pound (hs : cc.Sane) (x : Str) : lex cc ('#' :: x) = .Pound :: lex cc x :=
  lex_end hs .Pound x (by decide) (by decide)

/-- A comment line. -/
theorem lex_comment (hs : cc.Sane) (x y : Str) :
    lex cc ('#' :: (x ++ '\n' :: y)) = .Pound :: lex cc x ++ .Newline :: lex cc y := by
  rw [lex_pound hs, lex_line hs]; rfl

theorem lex_no_newline {x : Str} (hx : '\n' ∉ x) : ∀ t ∈ lex cc x, t ≠ .Newline := by
  rintro t ht rfl
  apply hx
  rw [← C01_concat_tokens cc x, concatTokens]
  exact List.mem_flatMap.2 ⟨_, ht, by simp [Token.asStr]⟩

theorem layout_lines (hs : cc.Sane) {l x : Str} (hl : Layout cc l) (hx : NB cc x) (hn : Gram.NoLineStart (lex cc x)) :
    ∃ ns, Gram.Lines (lex cc (l ++ x)) ns (lex cc x) := by
  induction hl with
  | gap h => exact ⟨[], .nil (gap_skip hs h hx) hn⟩
  | @newline g l h _ ih =>
    obtain ⟨ns, ih⟩ := ih
    obtain ⟨bs, h1, h2⟩ := filler_lex hs h.1 (nb_newline (l ++ x))
    refine ⟨⟨none⟩ :: ns, .cons ?_ ih⟩
    rw [List.append_assoc, List.cons_append, h1, lex_newline]
    exact .newline h2
  | @comment g y l h h' _ ih =>
    obtain ⟨ns, ih⟩ := ih
    have hnb : NB cc ('#' :: (y ++ '\n' :: (l ++ x))) := by rw [NB, lex_comment hs]; simp [Gram.NoBlank]
    obtain ⟨bs, h1, h2⟩ := filler_lex hs h.1 hnb
    refine ⟨⟨some (concatTokens (.Pound :: lex cc y))⟩ :: ns, .cons ?_ ih⟩
    rw [List.append_assoc, List.cons_append, List.append_assoc, List.cons_append, h1, lex_comment hs, ← List.append_assoc]
    exact .comment h2 (lex_no_newline h')

/-- The first character of a layout. -/
theorem layout_head {l : Str} (hl : Layout cc l) {c r} (h : l = c :: r) : Blank cc c ∨ c = '\n' ∨ c = '#' := by
  have key : ∀ {g y : Str} {d}, Gap cc g → g ++ d :: y = c :: r → d = '\n' ∨ d = '#' → Blank cc c ∨ c = '\n' ∨ c = '#' := by
    intro g y d hg e hd
    cases g with
    | nil => cases e; exact .inr hd
    | cons c' g =>
      cases e
      obtain ⟨_, _, e, h, -⟩ := gap_cons hg (by simp)
      cases e; exact .inl h
  cases hl with
  | gap hg =>
    subst h
    obtain ⟨_, _, e, h, -⟩ := gap_cons hg (by simp)
    cases e; exact .inl h
  | newline hg _ => exact key hg h (.inl rfl)
  | comment hg _ _ => exact key hg h (.inr rfl)

theorem lines_opt {l r : List Token} {ns} (h : Gram.Lines l ns r) : ∃ c l' ms, OptLine l c l' ∧ Gram.Lines l' ms r := by
  cases h with
  | nil h1 h2 => exact ⟨none, r, [], .none h1 h2, .nil (.refl h1.noBlank) h2⟩
  | cons h1 h2 => exact ⟨_, _, _, .some h1, h2⟩

/-! ## Starting from the same place -/

/-- The same tokens after blanks. -/
def Alike (l l2 : List Token) : Prop := ∃ x, Skip l x ∧ Skip l2 x

theorem Alike.skip {l l2 x : List Token} (h : Alike l l2) (hl : Skip l x) : Skip l2 x := by
  obtain ⟨y, h1, h2⟩ := h
  rwa [hl.unique h1]

theorem Alike.symm {l l2 : List Token} (h : Alike l l2) : Alike l2 l := by
  obtain ⟨y, h1, h2⟩ := h; exact ⟨y, h2, h1⟩

theorem Alike.of {l r : List Token} (h : Skip l r) : Alike r l := ⟨r, .refl h.noBlank, h⟩

section
variable {B : Builder} {b b' : B.State} {l l2 r : List Token}

theorem rawWord_same {k} (h : Alike l l2) (h' : Reads (.rawWord none) b l k r b') : Reads (.rawWord none) b l2 k r b' := by
  cases h' with
  | noWord h1 => exact .noWord (h.skip h1)
  | someWord h1 h2 h3 => exact .someWord (h.skip h1) h2 h3

theorem word_same {k} (h : Alike l l2) (h' : Reads .word b l k r b') : Reads .word b l2 k r b' := by
  cases h' with
  | word h1 h2 =>
    refine .word ?_ h2
    cases h1 with
    | wordPSome h3 h4 => exact .wordPSome (rawWord_same h h3) h4
    | wordPNone h3 => exact .wordPNone (rawWord_same h h3)

theorem words_same {k} (h : Alike l l2) (h' : Reads .words b l k r b') : Reads .words b l2 k r b' := by
  cases h' with
  | wordsNil h1 => exact .wordsNil (word_same h h1)
  | wordsCons h1 h2 => exact .wordsCons (word_same h h1) h2

theorem redirect_same {k} (h : Alike l l2) (h' : Reads .redirect b l k r b') : Reads .redirect b l2 k r b' := by
  cases h' with
  | redirect h1 h2 h3 => exact .redirect (rawWord_same h h1) h2 h3
  | redirectFd h1 h2 h3 h4 => exact .redirectFd (rawWord_same h h1) h2 h3 h4
  | redirectWord h1 h2 h3 => exact .redirectWord (rawWord_same h h1) h2 h3
  | noRedirect h1 h2 => exact .noRedirect (rawWord_same h h1) h2

theorem redirects_same {k} (h : Alike l l2) (h' : Reads .redirects b l k r b') : Reads .redirects b l2 k r b' := by
  cases h' with
  | redirectsNil h1 h2 => exact .redirectsNil (h.skip h1) h2
  | redirectsCons h1 h2 h3 => exact .redirectsCons (h.skip h1) h2 h3

theorem args_same {k} (h : Alike l l2) (h' : Reads .args b l k r b') : Reads .args b l2 k r b' := by
  cases h' with
  | argsRedirect h1 h2 => exact .argsRedirect (redirect_same h h1) h2
  | argsWord h1 h2 => exact .argsWord (redirect_same h h1) h2
  | argsEnd h1 => exact .argsEnd (redirect_same h h1)

theorem assigns_same {as e} (h : Alike l l2) (h' : Reads .assigns b l (as, e) r b') : Reads .assigns b l2 (as, e) r b' := by
  cases h' with
  | assignEmpty h1 h2 => exact .assignEmpty (h.skip h1) h2
  | assign h1 h2 h3 h4 => exact .assign (h.skip h1) h2 h3 h4
  | assignsRedirect h1 h2 h3 h4 => exact .assignsRedirect (h.skip h1) h2 h3 h4
  | assignsWord h1 h2 h3 => exact .assignsWord (h.skip h1) h2 h3
  | assignsEnd h1 h2 h3 => exact .assignsEnd (h.skip h1) h2 h3

theorem lines_same {ns} (h : Alike l l2) (h' : Gram.Lines l ns r) : Gram.Lines l2 ns r := by
  obtain ⟨x, h1, h2⟩ := h
  exact h'.skip h1 h2

theorem group_same {cfg k} (h : Alike l l2) (h' : Reads (.group cfg) b l k r b') : Reads (.group cfg) b l2 k r b' := by
  cases h' with
  | groupEnd h1 h2 => exact .groupEnd (lines_same h h1) h2
  | groupCons h1 h2 h3 h4 h5 => exact .groupCons (lines_same h h1) h2 h3 h4 h5

theorem patterns_same {k} (h : Alike l l2) (h' : Reads .patterns b l k r b') : Reads .patterns b l2 k r b' := by
  cases h' with
  | patternLast h1 => exact .patternLast (word_same h h1)
  | patternCons h1 h2 => exact .patternCons (word_same h h1) h2

theorem andOrRest_same {k} (h : Alike l l2) (h' : Reads .andOrRest b l k r b') : Reads .andOrRest b l2 k r b' := by
  cases h' with
  | andOrEnd h1 h2 => exact .andOrEnd (h.skip h1) h2
  | andOrAnd h1 h2 h3 h4 => exact .andOrAnd (h.skip h1) h2 h3 h4
  | andOrOr h1 h2 h3 h4 => exact .andOrOr (h.skip h1) h2 h3 h4

theorem kw_same {w} (h : Alike l l2) (h' : Gram.Kw w l r) : Gram.Kw w l2 r := by
  obtain ⟨x, h1, h2⟩ := h'
  exact ⟨x, h.skip h1, h2⟩

end

/-! ## After words and names -/

variable (cc) in
/-- What may follow a word. -/
def WordEnd (s : Str) : Prop := s = [] ∨ Delim cc s

theorem delim_ops : ∀ c ∈ "\n;&|<>()".toList, c ≠ '\\' ∧ ∃ p ∈ operators, p.1.head? = some c := by decide

theorem delim_op {c : Char} (h : c ∈ "\n;&|<>()".toList) : opStart c := (delim_ops c h).2

theorem WordEnd.ends (hs : cc.Sane) {s : Str} (h : WordEnd cc s) : Gram.EndsWord (lex cc s) := by
  rcases h with rfl | ⟨c, r, rfl, hc | hc⟩
  · rw [lex_nil]; intro t r e; cases e
  · obtain ⟨w, l, e⟩ := first_blank hs hc r
    rw [e]; intro t r e; cases e; rfl
  · obtain ⟨p, hp, hh, l, e⟩ := first_op (cc := cc) (delim_op hc) r
    have key : ∀ p ∈ operators, ∀ c ∈ "\n;&|<>()".toList, p.1.head? = some c → p.2.isWordDelimiter = true := by decide
    rw [e]; intro t r e; cases e
    exact key p hp c hc hh

/-- The text does not go on with an ordinary character. -/
def NotPlain (cc : CharClass) (s : Str) : Prop := ∀ c r, s = c :: r → ¬ Plain cc c

theorem notPlain_op {c : Char} {r : Str} (h : opStart c) : NotPlain cc (c :: r) := by
  intro d r' e hp; cases e; exact hp.2.1 h

theorem WordEnd.notPlain {s : Str} (h : WordEnd cc s) : NotPlain cc s := by
  rintro c r rfl hp
  rcases h with h | ⟨_, _, h, h' | h'⟩
  · cases h
  · cases h; have := hp.2.2; rw [h'.1] at this; cases this
  · cases h; exact hp.2.1 (delim_op h')

theorem NotPlain.nameStop (hs : cc.Sane) {s : Str} (h : NotPlain cc s) : NameStop cc s := by
  intro c hc
  cases s with
  | nil => cases hc
  | cons d s =>
    cases hc
    rw [← Bool.not_eq_true]
    intro hn
    exact h c s rfl (hs.plain hn)

theorem lex_name' (hs : cc.Sane) {x s : Str} (hx : Shape cc (.Name x)) (h : NameStop cc s) :
    lex cc (x ++ s) = .Name x :: lex cc s :=
  lex_cons hs (t := .Name x) hx (by simp) h

theorem gap_tail {g s : Str} (hg : Gap cc g) (h : g = [] → WordEnd cc s) : WordEnd cc (g ++ s) := by
  by_cases hn : g = []
  · subst hn; exact h rfl
  · obtain ⟨c, r, rfl, hc, -⟩ := gap_cons hg hn
    exact .inr ⟨c, _, rfl, .inl hc⟩

theorem delim_append {s t : Str} (h : Delim cc s) : Delim cc (s ++ t) := by
  obtain ⟨c, r, rfl, hc⟩ := h
  exact ⟨c, r ++ t, rfl, hc⟩

theorem tail_append {s t : Str} (h : Delim cc s) : WordEnd cc (s ++ t) := .inr (delim_append h)

theorem tail_op {c : Char} {r : Str} (h : c ∈ "\n;&|<>()".toList) : WordEnd cc (c :: r) := .inr ⟨c, r, rfl, .inr h⟩

/-- Literal text ends before what is not an ordinary character. -/
theorem lex_lit' (hs : cc.Sane) {s rest : Str} (h : ∀ c ∈ s, Plain cc c ∨ c ∈ "!#%-=+@^/,".toList) (hr : NotPlain cc rest) :
    lex cc (s ++ rest) = lex cc s ++ lex cc rest := by
  cases rest with
  | nil => rw [lex_nil, List.append_nil, List.append_nil]
  | cons c rest =>
    have hp := hr c rest rfl
    rw [C03_tokens_iff_grammar]
    have hl := lex_lexes cc s
    generalize lex cc s = ts at hl
    induction hl with
    | nil => exact lex_lexes cc _
    | trailingBackslash => exact absurd rfl (litChar_not_meta hs (h '\\' (by simp))).1
    | escape _ _ _ => exact absurd rfl (litChar_not_meta hs (h '\\' (by simp))).1
    | @op o t s ts ho _ ih =>
      rw [List.append_assoc]
      refine .op ?_ (ih fun c hc => h c (by simp [hc]))
      obtain ⟨h1, h2, h3⟩ := ho
      have key : ∀ p ∈ operators, (∀ c ∈ p.1.head?, c ∈ "!#%-=+@^/,".toList) → p.1.length = 1 := by decide
      have hne : ∀ p ∈ operators, p.1 ≠ [] := by decide
      obtain ⟨d, o', rfl⟩ := List.exists_cons_of_ne_nil (hne _ h1)
      have hd := (litChar_not_meta hs (h d (by simp))).2.2 ⟨_, h1, rfl⟩
      refine ⟨h1, List.prefix_append _ _, fun p hp hpre => ?_⟩
      have : p.1.head? = some d := by
        obtain ⟨e, p', hp'⟩ := List.exists_cons_of_ne_nil (hne _ hp)
        rw [hp'] at hpre ⊢
        obtain ⟨z, hz⟩ := hpre
        rw [List.cons_append, List.cons_append] at hz
        injection hz with hz _
        rw [hz]; rfl
      have := key p hp (by rw [this]; rintro _ ⟨⟩; exact hd)
      rw [this]; simp
    | blank _ _ g3 _ _ ih =>
      rw [(litChar_not_meta hs (h _ (by simp))).2.1] at g3; cases g3
    | name g1 g2 g3 _ ih =>
      rw [List.append_assoc]
      exact .name g1 g2 (maximalRun_append g3 (fun h => hp h.1)) (ih fun c hc => h c (by simp [hc]))
    | literal g1 g2 g3 _ ih =>
      rw [List.append_assoc]
      exact .literal g1 g2 (maximalRun_append g3 hp) (ih fun c hc => h c (by simp [hc]))

/-! ## Separators -/

theorem lex_sep (hs : cc.Sane) {t : Token} {c d : Char} {rest : Str} (ht : t.asStr = [c]) (hm : (t.asStr, t) ∈ operators)
    (hk : ∀ p ∈ operators, p.1.head? = some c → p.1 = [c] ∨ p.1 = [c, d]) (hd : rest.head? ≠ some d) :
    lex cc (c :: rest) = t :: lex cc rest := by
  have := lex_op cc hs (s := rest) hm (by rintro rfl; revert hm; decide) (by
    intro e he p hp hpre
    rw [ht] at hpre
    have hh : p.1.head? = some c := by
      obtain ⟨z, hz⟩ := hpre
      rw [← hz]; rfl
    rcases hk p hp hh with h | h <;> rw [h] at hpre
    · have := hpre.length_le; simp at this
    · have : e = d := by simpa using hpre
      subst this; exact hd he)
  rwa [ht] at this

theorem lex_semi' (hs : cc.Sane) {rest : Str} (h : rest.head? ≠ some ';') : lex cc (';' :: rest) = .Semi :: lex cc rest :=
  lex_sep hs (t := .Semi) rfl (by decide) (by decide) h
theorem lex_amp' (hs : cc.Sane) {rest : Str} (h : rest.head? ≠ some '&') : lex cc ('&' :: rest) = .Amp :: lex cc rest :=
  lex_sep hs (t := .Amp) rfl (by decide) (by decide) h
theorem lex_pipe' (hs : cc.Sane) {rest : Str} (h : rest.head? ≠ some '|') : lex cc ('|' :: rest) = .Pipe :: lex cc rest :=
  lex_sep hs (t := .Pipe) rfl (by decide) (by decide) h
theorem lex_dsemi (hs : cc.Sane) (rest : Str) : lex cc (';' :: ';' :: rest) = .DSemi :: lex cc rest :=
  lex_end hs .DSemi rest (by decide) (by decide)
theorem lex_and (hs : cc.Sane) (rest : Str) : lex cc ('&' :: '&' :: rest) = .AndIf :: lex cc rest :=
  lex_end hs .AndIf rest (by decide) (by decide)
theorem lex_or (hs : cc.Sane) (rest : Str) : lex cc ('|' :: '|' :: rest) = .OrIf :: lex cc rest :=
  lex_end hs .OrIf rest (by decide) (by decide)
theorem lex_rpar (hs : cc.Sane) (rest : Str) : lex cc (')' :: rest) = .ParenClose :: lex cc rest :=
  lex_end hs .ParenClose rest (by decide) (by decide)
theorem lex_lpar (hs : cc.Sane) (rest : Str) : lex cc ('(' :: rest) = .ParenOpen :: lex cc rest :=
  lex_end hs .ParenOpen rest (by decide) (by decide)

/-! ## After commands -/

/-- What may follow a command, after a gap. -/
def StopAt (rest : Str) : Prop := ∀ c, rest.head? = some c → c ∈ "\n;&|)#".toList

theorem StopAt.tokens {rest : Str} (h : StopAt rest) {t l} (e : lex cc rest = t :: l) :
    t ∈ [Token.Newline, .Semi, .DSemi, .Amp, .AndIf, .Pipe, .OrIf, .ParenClose, .Pound] := by
  cases rest with
  | nil => rw [lex_nil] at e; cases e
  | cons c r =>
    have hc := h c rfl
    have k1 : ∀ c ∈ "\n;&|)#".toList, ∃ p ∈ operators, p.1.head? = some c := by decide
    have k2 : ∀ p ∈ operators, ∀ c ∈ "\n;&|)#".toList, p.1.head? = some c →
      p.2 ∈ [Token.Newline, .Semi, .DSemi, .Amp, .AndIf, .Pipe, .OrIf, .ParenClose, .Pound] := by decide
    obtain ⟨p, hp, hh, l', e'⟩ := first_op (cc := cc) (k1 c hc) r
    rw [e'] at e; cases e
    exact k2 p hp c hc hh

theorem StopAt.nb {rest : Str} (h : StopAt rest) : NB cc rest := by
  constructor
  · intro w r e; have := h.tokens e; simp at this
  · intro r e; have := h.tokens e; simp at this

variable (cc) in
/-- A gap and the end of a command. -/
def After (E rest : Str) : Prop :=
  ∃ g, Gap cc g ∧ E = g ++ rest ∧ StopAt rest ∧ (rest.head? = some '#' → g ≠ [])

theorem After.stop {E rest : Str} (h : After cc E rest) : StopAt rest := by
  obtain ⟨g, -, -, h, -⟩ := h; exact h

theorem After.skip (hs : cc.Sane) {E rest : Str} (h : After cc E rest) : Skip (lex cc E) (lex cc rest) := by
  obtain ⟨g, h1, rfl, h, -⟩ := h
  exact gap_skip hs h1 h.nb

theorem After.tail {E rest : Str} (h : After cc E rest) : WordEnd cc E := by
  obtain ⟨g, h1, rfl, h, h2⟩ := h
  refine gap_tail h1 ?_
  rintro rfl
  cases rest with
  | nil => exact .inl rfl
  | cons c r =>
    have hc := h c rfl
    refine tail_op ?_
    have key : ∀ c ∈ "\n;&|)#".toList, c ∈ "\n;&|<>()".toList ∨ c = '#' := by decide
    rcases key c hc with h | rfl
    · exact h
    · exact absurd rfl (h2 rfl)

theorem After.gap {g E rest : Str} (hg : Gap cc g) (h : After cc E rest) : After cc (g ++ E) rest := by
  obtain ⟨g', h1, rfl, h, h2⟩ := h
  exact ⟨g ++ g', gap_append hg h1, by simp, h, fun e => by have := h2 e; simp [this]⟩

theorem After.refl {rest : Str} (h : StopAt rest) (h2 : rest.head? ≠ some '#') : After cc rest rest :=
  ⟨[], gap_nil, rfl, h, fun e => absurd e h2⟩

section
variable {E rest : Str} (hs : cc.Sane) (h : After cc E rest)
include hs h

theorem After.raw : RD (.rawWord none) (lex cc E) none (lex cc rest) := by
  have hsk := h.skip hs
  by_cases hp : ∃ l, lex cc rest = .Pound :: l
  · obtain ⟨l, hp⟩ := hp
    rw [hp] at hsk ⊢
    exact .noWord hsk
  · refine Reads.someWord (ws := []) hsk (fun r e => hp ⟨r, e⟩) (.endWord ?_)
    intro t r e
    have := h.stop.tokens e
    have hne : t ≠ .Pound := by rintro rfl; exact hp ⟨_, e⟩
    clear hsk hp e h
    revert t; decide

theorem After.redirect : RD .redirect (lex cc E) none (lex cc rest) := by
  refine .noRedirect (h.raw hs) fun t r e => ?_
  have := h.stop.tokens e
  clear e h
  revert t; decide

theorem After.redirects : RD .redirects (lex cc E) [] (lex cc rest) :=
  .redirectsNil (h.skip hs) (redirect_same (Alike.of (h.skip hs)).symm (h.redirect hs))

theorem After.args : RD .args (lex cc E) [] (lex cc rest) := .argsEnd (h.redirect hs)

theorem After.assigns : RD .assigns (lex cc E) ([], none) (lex cc rest) := by
  refine .assignsEnd (h.skip hs) ?_ (redirect_same (Alike.of (h.skip hs)).symm (h.redirect hs))
  rintro ⟨x, r, e⟩
  have := h.stop.tokens e
  simp at this

theorem After.word : RD .word (lex cc E) none (lex cc rest) := .word (.wordPNone (h.raw hs)) (.refl h.stop.nb)

theorem After.words : RD .words (lex cc E) [] (lex cc rest) := .wordsNil (h.word hs)

end

end
end Conch
