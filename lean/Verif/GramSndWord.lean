import Verif.GramSnd
import Verif.GramSubst
import Verif.GramCmd2
import Verif.PropsArith
/-!
# Grammar soundness: words, parameters and substitutions
-/
namespace Conch.Gram
open Conch

section
variable {B : Builder}

/-- A method only reads what the grammar says. -/
abbrev Sound (n : NT) (m : P AIter B (n.Res B)) : Prop :=
  ∀ l b, Snd m l b fun a r b' => Reads (B := B) n b l a r b'

/-- The recursive methods only read what the grammar says. -/
structure SndRec (R : Rec AIter B) : Prop where
  group : ∀ cfg, Delims.Proper cfg → Sound (.group cfg) (R.group cfg)
  param : Sound .param R.param

variable {R : Rec AIter B}

theorem Reads.group_eof' {n : NT} {b : B.State} {l a r b'} (h : Reads n b l a r b') :
    n = .group noDelim → r = [] := by
  induction h with
  | groupEnd _ h =>
    intro hn
    cases hn
    rcases h with h | h
    · rcases h with ⟨t, ht, _⟩ | ⟨t, ht, _⟩ | ⟨t, ht, _⟩ <;> cases ht
    · exact h
  | groupCons _ _ _ _ _ _ ih => intro hn; cases hn; exact ih rfl
  | _ => intro hn; cases hn

/-- A group without delimiters goes to the end of input. -/
theorem Reads.group_eof {b : B.State} {l g r b'} (h : Reads (.group noDelim) b l g r b') :
    r = [] := h.group_eof' rfl

/-- Drops a trivial continuation. -/
theorem Snd.ret {α : Type} {m : P AIter B α} {l b} {Q : α → List Token → B.State → Prop}
    (h : Snd (m >>= fun w => Pure.pure w) l b Q) : Snd m l b Q := by
  intro L e hL a s' heq
  refine h L e hL a s' ?_
  rw [bind_ok heq]; rfl

theorem snd_backtick (hR : SndRec R) : Sound .backtick (backtickedRaw R) := by
  intro l b
  refine .ret (.backtick fun u r hl hb => ?_)
  subst hl
  refine (hR.group noDelim proper_no _ _).mono fun g r' b' hg => .pure ?_
  obtain rfl := hg.group_eof
  exact .backtick hb hg

theorem startsParam_cases {t : Token} (h : t.startsParam = true) : t = .Dollar ∨ ∃ p, t = .ParamPositional p := by
  cases t <;> first | (exact .inl rfl) | (exact .inr ⟨_, rfl⟩) | cases h

/-! ## Double quoted words -/

/-- What is read between double quotes (or in a here-document), after the words `ws` and the text
`s`. -/
def InterpReads (d : Option Token) (x : InterpSt B.Command) (b : B.State) (l : List Token)
    (a : InterpSt B.Command) (r : List Token) (b' : B.State) : Prop :=
  ∃ ps, Reads (.interpParts d) b l ps r b' ∧ flush a = x.1 ++ gather x.2 ps

/-- The same for one iteration. -/
def InterpStep (d : Option Token) (x : InterpSt B.Command) (b : B.State) (l : List Token) :
    Step (InterpSt B.Command) (InterpSt B.Command) → List Token → B.State → Prop
  | .done a, r, b' => InterpReads d x b l a r b'
  | .cont y, r, b' => ∀ a r' b'', InterpReads d y b' r a r' b'' → InterpReads d x b l a r' b''

theorem flush_nil {C : Type} (st : InterpSt C) : flush st = st.1 ++ textOf st.2 := by
  unfold flush textOf
  cases st.2 <;> simp

theorem snd_interpBody (hR : SndRec R) (d : Option (Token × Token)) (p : SourcePos)
    (x : InterpSt B.Command) (l : List Token) (b : B.State) :
    Snd (interpBody R d p x) l b (InterpStep (d.map (·.2)) x b l) := by
  unfold interpBody
  refine .peek ?_
  cases l with
  | nil =>
    dsimp only [List.head?_nil]
    refine .ite (fun h => ?_) (fun h => ?_)
    · refine .nextNil (.pure ⟨[], ?_, by rw [flush_nil]; rfl⟩)
      rw [← h]
      exact .interpEof
    · simp only [Option.any_none, reduceCtorEq, Bool.false_eq_true, if_false]
      refine .nextNil ?_
      cases d with
      | none => exact absurd rfl h
      | some d => exact .fail
  | cons t l =>
    dsimp only [List.head?_cons]
    refine .ite (fun h => ?_) (fun hd => ?_)
    · refine Snd.next (.pure ⟨[], ?_, by rw [flush_nil]; rfl⟩)
      rw [← h]
      exact .interpEnd
    · have hd' : ∀ t' l', t :: l = t' :: l' → d.map (·.2) ≠ some t' := by
        rintro _ _ ⟨⟩; exact Ne.symm hd
      refine .ite (fun _ => ?_) (fun hp => ?_)
      · refine .bind ((hR.param _ _).mono fun w r b' hw => .pure ?_)
        rintro a r' b'' ⟨ps, h1, h2⟩
        refine ⟨_, .interpParam hd' hw h1, ?_⟩
        rw [h2, store, flush_nil]
        simp [gather]
      · refine .ite (fun _ => ?_) (fun hbt => ?_)
        · refine .bind ((snd_backtick hR _ _).mono fun w r b' hw => .pure ?_)
          rintro a r' b'' ⟨ps, h1, h2⟩
          refine ⟨_, .interpBacktick hd' hw h1, ?_⟩
          rw [h2, store, flush_nil]
          simp [gather]
        · have htext : t ∉ [Token.Dollar, .Backtick, .Backslash] →
              Snd (pure (Step.cont (x.1, x.2 ++ t.asStr)) : P AIter B _) l b
                (InterpStep (d.map (·.2)) x b (t :: l)) := by
            intro ht
            refine .pure ?_
            rintro a r' b'' ⟨ps, h1, h2⟩
            refine ⟨_, .interpText (Ne.symm hd) ht ?_ h1, by rw [h2]; rfl⟩
            rintro p rfl
            exact hp rfl
          refine Snd.next ?_
          cases t
          case Backslash =>
            dsimp only
            cases l with
            | nil =>
              refine .peekNil ?_
              refine .ite (fun h => ?_) (fun h => ?_)
              · refine .nextNil .panicAt
              · refine .pure ?_
                rintro a r' b'' ⟨ps, h1, h2⟩
                exfalso
                simp only [Option.any_none, Bool.false_or, decide_eq_true_eq] at h
                generalize hl : ([] : List Token) = l' at h1
                generalize hn : d.map (·.2) = d' at h1 h
                cases h1 <;> cases hl
                · exact h rfl
                · rename_i hw; obtain ⟨_, _, h, _⟩ := hw.param_head; cases h
                · rename_i hw; obtain ⟨_, h⟩ := hw.backtick_head; cases h
            | cons u l =>
              refine .peekCons ?_
              refine .ite (fun h => ?_) (fun h => ?_)
              · refine Snd.next (.pure ?_)
                rintro a r' b'' ⟨ps, h1, h2⟩
                refine ⟨_, .interpEscaped (Ne.symm hd) ?_ h1, ?_⟩
                · simp only [Option.any_some, Bool.or_eq_true, decide_eq_true_eq, dqSpecial_iff] at h
                  rcases h with h | h
                  · exact .inl h
                  · exact .inr h.symm
                · rw [h2, store, flush_nil]
                  simp [gather]
              · refine .pure ?_
                rintro a r' b'' ⟨ps, h1, h2⟩
                refine ⟨_, .interpBackslash (Ne.symm hd) ?_ (by simp) h1, by rw [h2]; rfl⟩
                rintro _ _ ⟨⟩
                simp only [Option.any_some, Bool.or_eq_true, decide_eq_true_eq, dqSpecial_iff,
                  not_or] at h
                exact ⟨h.1, Ne.symm h.2⟩
          all_goals first
            | exact .panicAt
            | exact htext (by simp)

theorem snd_interp (hR : SndRec R) (d : Option (Token × Token)) (p : SourcePos) (l : List Token)
    (b : B.State) :
    Snd (wordInterpolatedRaw R d p) l b
      fun a r b' => Reads (B := B) (.interp (d.map (·.2))) b l a r b' := by
  unfold wordInterpolatedRaw
  refine .bind (.mono (Q := InterpReads (d.map (·.2)) ([], []) b l) ?_ ?_)
  · refine .loop (fun x l' b' => ∀ a r b'', InterpReads (d.map (·.2)) x b' l' a r b'' →
      InterpReads (d.map (·.2)) ([], []) b l a r b'') (fun _ _ _ h => h) ?_
    intro x l' b' hI
    refine (snd_interpBody hR d p x l' b').mono ?_
    rintro (y | a) r b'' h
    · exact fun a r' b3 h' => hI _ _ _ (h _ _ _ h')
    · exact hI _ _ _ h
  · rintro a r b' ⟨ps, h1, h2⟩
    refine .pure ?_
    rw [h2]
    exact .interp h1

/-! ## Words -/

theorem wordLiteral_mem {t : Token} (h : t.wordLiteral = true) : t ∈ literalTokens := by
  cases t <;> first | (cases h; done) | decide

/-- What one iteration of the loop over the parts of a word does. -/
theorem snd_wordBody (hR : SndRec R) (d : Option Token) (x : List (WordKind B.Command))
    (l : List Token) (b : B.State) :
    Snd (wordBody R d x) l b
      (CStep (fun b l y r b' => Reads (B := B) (.pieces d) b l y r b') x l b) := by
  unfold wordBody
  cases l with
  | nil =>
    refine .peekNil (Snd.pure ⟨[], by simp, .endWord ?_⟩)
    intro t r h; cases h
  | cons t l =>
    refine .peekCons ?_
    dsimp only
    split
    · next h =>
      subst h
      exact .pure ⟨[], by simp, .endCurly⟩
    · next hd =>
      have hd' : ∀ t' l', t :: l = t' :: l' → d ≠ some t' := by
        rintro _ _ ⟨⟩; exact Ne.symm hd
      split
      · next h =>
        refine .pure ⟨[], by simp, .endWord ?_⟩
        rintro _ _ ⟨⟩; exact h
      · split
        · refine .bind ((snd_backtick hR _ _).mono fun w r b' hw => .pure ⟨[_], rfl, ?_⟩)
          exact fun z r' b'' hz => .consPiece hd' (.pieceBacktick hw) hz
        · split
          · refine .bind ((hR.param _ _).mono fun w r b' hw => .pure ⟨[_], rfl, ?_⟩)
            exact fun z r' b'' hz => .consPiece hd' (.pieceParam hw) hz
          · next hdel hbt hp =>
            refine .getPos fun p => Snd.next ?_
            dsimp only
            split
            · next h =>
              exact .pure ⟨[_], rfl, fun z r' b'' hz =>
                .consPiece hd' (.literal (wordLiteral_mem h)) hz⟩
            · next hlit =>
              cases t
              case Backslash =>
                dsimp only
                cases l with
                | nil => exact .nextNil (Snd.pure ⟨[], by simp, .endBackslash (Ne.symm hd)⟩)
                | cons u l =>
                  refine Snd.next ?_
                  by_cases hu : u = .Newline
                  · subst hu
                    exact .pure ⟨[], by simp, .endEscaped (Ne.symm hd)⟩
                  · have : Snd (pure (Step.cont (x ++ [.Simple (.Escaped u.asStr)])) : P AIter B _) l b
                        (CStep (fun b l y r b' => Reads (B := B) (.pieces d) b l y r b') x
                          (.Backslash :: u :: l) b) :=
                      .pure ⟨[_], rfl, fun z r' b'' hz => .consPiece hd' (.escaped hu) hz⟩
                    cases u <;> first | exact absurd rfl hu | exact this
              case SingleQuote =>
                refine .singleQuoted fun u r hl hu => .pure ⟨[_], rfl, ?_⟩
                subst hl
                exact fun z r' b'' hz => .consPiece hd' (.singleQuoted hu) hz
              case DoubleQuote =>
                refine .bind ((snd_interp hR _ _ _ _).mono fun ws r b' hw => .pure ⟨[_], rfl, ?_⟩)
                exact fun z r' b'' hz => .consPiece hd' (.doubleQuoted hw) hz
              case Name s =>
                exact .pure ⟨[_], rfl, fun z r' b'' hz => .consPiece hd' .name hz⟩
              case Literal s =>
                exact .pure ⟨[_], rfl, fun z r' b'' hz => .consPiece hd' .text hz⟩
              all_goals first
                | exact .panicAt
                | exact .pure ⟨[_], rfl, fun z r' b'' hz =>
                    .consPiece hd' (.special (by simp [specialTokens])) hz⟩

theorem snd_pieces (hR : SndRec R) (d : Option Token) (l : List Token) (b : B.State) :
    Snd (loop (wordBody R d) []) l b
      fun a r b' => Reads (B := B) (.pieces d) b l a r b' := by
  refine (Snd.collect (fun b l y r b' => Reads (B := B) (.pieces d) b l y r b')
    (snd_wordBody hR d)).mono ?_
  rintro a r b' ⟨y, rfl, h⟩
  exact h

theorem snd_rawWord (hR : SndRec R) (d : Option Token) : Sound (.rawWord d) (wordRawDelim R d) := by
  intro l b
  unfold wordRawDelim
  refine .skip fun l' hl => .peek ?_
  by_cases h : ∃ r, l' = .Pound :: r
  · obtain ⟨r, rfl⟩ := h
    exact .pure (.noWord hl)
  · have h' : ∀ r, l' ≠ .Pound :: r := fun r hr => h ⟨r, hr⟩
    rw [if_neg (head_ne h')]
    refine .bind ((snd_pieces hR d _ _).mono fun ws r b' hw => .pure ?_)
    rw [wordOf_eq]
    exact .someWord hl h' hw

theorem snd_wordP (hR : SndRec R) : Sound .wordP (wordPreserve R) := by
  intro l b
  unfold wordPreserve wordRaw
  refine .bind ((snd_rawWord hR none _ _).mono ?_)
  rintro (_ | k) r b' h
  · exact .pure (.wordPNone h)
  · exact .bind (.call fun w b'' hc => .pure (.wordPSome h hc))

theorem snd_word (hR : SndRec R) : Sound .word (word R) := by
  intro l b
  unfold word
  refine .bind ((snd_wordP hR _ _).mono fun w r b' h => .skip fun r' hr => .pure (.word h hr))

/-! ## Parameters and substitutions -/

theorem snd_parameterInner {β : Type} {l : List Token} {b : B.State} {f : DefaultParameter → P AIter B β}
    {Q : β → List Token → B.State → Prop}
    (h : ∀ t q r, l = t :: r → ParamIn t q → Snd (f q) r b Q) : Snd (parameterInner >>= f) l b Q := by
  refine .bind ?_
  unfold parameterInner
  refine .getPos fun p => ?_
  cases l with
  | nil => exact .nextNil .fail
  | cons t l =>
    refine Snd.next ?_
    cases t
    case Literal s =>
      dsimp only
      split
      · next n hn =>
        obtain ⟨h1, h2, h3⟩ := unsigned_signed hn
        exact .pure (h _ _ _ rfl (.number h1 (by omega) h3))
      · exact .fail
    case Name s => exact .pure (h _ _ _ rfl (.name .var))
    all_goals first
      | exact .fail
      | exact .pure (h _ _ _ rfl (.name (.special (by simp [specialParams]))))

/-! ### The word of a substitution -/

theorem substPieces_nil {mid : Bool} {b : B.State} {a r b'}
    (h : Reads (.substPieces mid) b [] a r b') : False := by
  cases h with
  | substPiece _ _ h _ => obtain ⟨t, l', h, -⟩ := h.piece_head; cases h

/-- Directly after something else the next word may start. -/
theorem Reads.toMid {b : B.State} {l a r b'} (h : Reads (.substPieces false) b l a r b')
    (hl : ∀ t l', l = t :: l' → t.isWordDelimiter = true ∨ t = .CurlyClose) :
    Reads (.substPieces true) b l a r b' := by
  cases h with
  | substEnd => exact .substEnd
  | substDelim h1 h2 => exact .substDelim h1 h2
  | substPound => rcases hl _ _ rfl with h | h <;> cases h
  | substEscaped => rcases hl _ _ rfl with h | h <;> cases h
  | substPiece h1 h2 h3 h4 => exact .substPiece h1 (by simp) h3 h4

theorem pieces_subst' {n : NT} {b : B.State} {l a r b'} (h : Reads n b l a r b') :
    match n, a with
    | .pieces d, a => d = some .CurlyClose → ∀ z r' b'', Reads (.substPieces false) b' r z r' b'' →
        Reads (.substPieces true) b l (a ++ z) r' b''
    | _, _ => True := by
  induction h with
  | endWord h =>
    rintro rfl z r' b'' hz
    exact hz.toMid fun t l' ht => .inl (h t l' ht)
  | endCurly =>
    rintro ⟨⟩ z r' b'' hz
    exact hz.toMid fun t l' ht => .inr (by cases ht; rfl)
  | endEscaped => rintro rfl z r' b'' hz; exact .substDropped hz
  | endBackslash => rintro rfl z r' b'' hz; exact absurd hz substPieces_nil
  | consPiece h1 h2 _ _ ih =>
    rintro rfl z r' b'' hz
    exact .substPiece (by rintro l' rfl; exact h1 _ _ rfl rfl) (by simp) h2 (ih rfl z r' b'' hz)
  | _ => trivial

theorem pieces_subst {b : B.State} {l a r b'}
    (h : Reads (.pieces (some .CurlyClose)) b l a r b') {z r' b''}
    (hz : Reads (.substPieces false) b' r z r' b'') :
    Reads (.substPieces true) b l (a ++ z) r' b'' := pieces_subst' h rfl z r' b'' hz

/-- What has been read of the word so far. -/
def SubstInv (b : B.State) (l : List Token) (acc : List (WordKind B.Command)) (l' : List Token)
    (b' : B.State) : Prop :=
  ∀ a r b'', Reads (.substPieces false) b' l' a r b'' →
    Reads (.substPieces false) b l (acc ++ a) r b''

/-- A word starts here. -/
def SubstWordStart (l : List Token) : Prop :=
  ∃ t l', l = t :: l' ∧ t ≠ .CurlyClose ∧ t.substLiteral = false ∧
    (t = .Backslash → ∀ l2, l' ≠ .Newline :: l2)

theorem snd_literals (b0 : B.State) (l0 : List Token) (x : List (WordKind B.Command)) (l : List Token)
    (b : B.State) (h : SubstInv b0 l0 x l b) :
    Snd (loop captureLiteralsBody x) l b fun a r b' => SubstInv b0 l0 a.2 r b' ∧
      (a.1 = false → SubstWordStart r) := by
  refine .loop (SubstInv b0 l0) h ?_
  intro x l b hx
  unfold captureLiteralsBody
  cases l with
  | nil => exact .peekNil (Snd.pure ⟨hx, fun h => by cases h⟩)
  | cons t l =>
    refine .peekCons ?_
    dsimp only
    refine .ite (fun h => ?_) (fun hc => ?_)
    · exact .pure ⟨hx, fun h => by cases h⟩
    refine .ite (fun h => ?_) (fun hbs => ?_)
    · subst h
      refine .lookahead mpSecondNewline_it fun it => ?_
      rw [mpSecondNewline_val]
      refine .ite (fun h => ?_) (fun hn => ?_)
      · cases l with
        | nil => simp at h
        | cons u l =>
          simp at h
          subst h
          refine Snd.next (Snd.next (.pure ?_))
          intro a r b'' ha
          have := hx _ _ _ (.substEscaped ha)
          simpa using this
      · refine .pure ⟨hx, fun _ => ⟨_, _, rfl, by simp, by decide, fun _ l2 h => ?_⟩⟩
        subst h
        simp at hn
    refine .ite (fun h => ?_) (fun hs => ?_)
    · refine Snd.next (.pure ?_)
      intro a r b'' ha
      unfold Token.substLiteral at h
      simp only [Bool.or_eq_true, decide_eq_true_eq] at h
      rcases h with h | rfl
      · simpa using hx _ _ _ (.substDelim h ha)
      · simpa using hx _ _ _ (.substPound ha)
    · exact .pure ⟨hx, fun _ => ⟨_, _, rfl, hc, by simpa using hs, fun h => absurd h hbs⟩⟩

theorem Skip.of_noBlank {l r : List Token} (h : Skip l r) (hl : NoBlank l) : r = l :=
  Skip.unique h (Skip.refl hl)

theorem SubstWordStart.noBlank {l : List Token} (h : SubstWordStart l) : NoBlank l := by
  obtain ⟨t, l', rfl, -, h1, h2⟩ := h
  constructor
  · rintro w r ⟨⟩; simp [Token.substLiteral, Token.isWordDelimiter] at h1
  · rintro r ⟨⟩; exact h2 rfl _ rfl

theorem snd_substPieces (hR : SndRec R) (l : List Token) (b : B.State) :
    Snd (loop (captureWordsBody R) []) l b fun a r b' => SubstInv b l a r b' := by
  refine .loop (SubstInv b l) (fun a r b'' h => h) ?_
  intro x l' b' hx
  unfold captureWordsBody
  refine .bind ((snd_literals b l x l' b' hx).mono ?_)
  rintro ⟨stop, ws⟩ r b1 ⟨hw, hs⟩
  dsimp only
  refine .ite (fun h => .pure hw) (fun h => ?_)
  have hs := hs (by simpa using h)
  refine .bind ((snd_rawWord hR _ _ _).mono ?_)
  intro k r2 b2 hk
  have hcons : ∀ w ps, Reads (.pieces (some .CurlyClose)) b1 r (w :: ps) r2 b2 →
      SubstInv b l (ws ++ w :: ps) r2 b2 := by
    intro w ps hp a r3 b3 ha
    have := hw (w :: ps ++ a) r3 b3 ?_
    · simpa using this
    obtain ⟨t, l2, rfl, h1, h2, h3⟩ := hs
    cases hp with
    | consPiece h4 h5 h6 =>
      refine .substPiece ?_ ?_ h5 (pieces_subst h6 ha)
      · rintro l' ⟨⟩; exact h1 rfl
      · rintro - l' ⟨⟩; simp [Token.substLiteral] at h2
  generalize hk' : k = k' at hk
  cases hk with
  | noWord h =>
    obtain ⟨t, l2, rfl, h1, h2, h3⟩ := hs
    have := h.of_noBlank (SubstWordStart.noBlank ⟨t, l2, rfl, h1, h2, h3⟩)
    cases this
    simp [Token.substLiteral] at h2
  | @someWord _ _ _ _ ps _ _ h1 h2 h3 =>
    obtain rfl := h1.of_noBlank hs.noBlank
    subst hk'
    rcases ps with _ | ⟨w, _ | ⟨w', ps⟩⟩
    · refine Snd.pure ?_
      intro a r3 b3 ha
      obtain ⟨t, l2, rfl, h4, h5, h6⟩ := hs
      have hnd : t.isWordDelimiter = false := by
        simp [Token.substLiteral] at h5; exact h5.1
      cases h3 with
      | endWord h => rw [h _ _ rfl] at hnd; cases hnd
      | endCurly => exact absurd rfl h4
      | endEscaped => exact absurd rfl (h6 rfl _)
      | endBackslash => exact absurd ha substPieces_nil
    · exact Snd.pure (hcons _ _ h3)
    · exact Snd.pure (hcons _ _ h3)

theorem snd_substWord (hR : SndRec R) (p : SourcePos) : Sound .substWord (paramSubstWordRaw R p) := by
  intro l b
  unfold paramSubstWordRaw
  refine .bind ((snd_substPieces hR l b).mono fun ws r b' h => ?_)
  refine .eatMaybe (fun r' hr => ?_) fun _ => .fail
  subst hr
  refine .pure ?_
  rw [wordOf_eq]
  have := h [] _ _ .substEnd
  rw [List.append_nil] at this
  exact .substWord this

/-! ### Substitutions -/

theorem substWord_none {b : B.State} {l a r b'} (h : Reads .substWord b l a r b')
    (ha : a = none) : l = .CurlyClose :: r ∧ b' = b := by
  cases h with
  | @substWord _ _ ws _ _ h =>
    rcases ws with _ | ⟨w, _ | ⟨w', ws⟩⟩
    · cases h; exact ⟨rfl, rfl⟩
    · cases ha
    · cases ha

theorem snd_lenSpecial {b : B.State} {l r b' t q} (h : Reads .substWord b l none r b')
    (ht : (t, q) ∈ [(Token.Pound, Parameter.Pound), (.Question, .Question), (.Dash, .Dash)]) :
    Reads (.curly .Pound) b (t :: l) (.Subst (.Len q)) r b' := by
  obtain ⟨rfl, rfl⟩ := substWord_none h rfl
  exact .curlyLenSpecial ht

theorem snd_curlyBody (hR : SndRec R) (p : SourcePos) (q : DefaultParameter) :
    Sound (.curly q) (paramSubstBodyRaw R q p) := by
  intro l b
  unfold paramSubstBodyRaw
  refine .eatMaybe (fun r hr => .getPos fun _ => ?_) (fun hc => .getPos fun _ => ?_)
  · subst hr
    cases r with
    | nil => exact .nextNil .fail
    | cons t r =>
      refine Snd.next ?_
      cases t
      case CurlyClose => exact .pure .curlyColonEnd
      case Dash =>
        refine .bind ((snd_substWord hR p _ _).mono fun w r b' h => ?_)
        simp only [Bool.not_true, Bool.and_false, Bool.false_and, Bool.false_eq_true, if_false]
        exact .pure (.curlyColonOp (by simp [substOps]) h)
      case Question =>
        refine .bind ((snd_substWord hR p _ _).mono fun w r b' h => ?_)
        simp only [Bool.not_true, Bool.and_false, Bool.false_and, Bool.false_eq_true, if_false]
        exact .pure (.curlyColonOp (by simp [substOps]) h)
      all_goals first
        | exact .fail
        | exact .bind ((snd_substWord hR p _ _).mono fun w r b' h =>
            .pure (.curlyColonOp (by simp [substOps]) h))
  · cases l with
    | nil => exact .nextNil .fail
    | cons t r =>
      refine Snd.next ?_
      cases t
      case CurlyClose => exact .pure .curlyEnd
      case Dash =>
        refine .bind ((snd_substWord hR p _ _).mono fun w r b' h => ?_)
        refine .ite (fun hq => ?_) (fun hq => ?_)
        · simp at hq
          obtain ⟨⟨rfl⟩, rfl⟩ := hq
          exact .pure (snd_lenSpecial h (by simp))
        · refine .pure (.curlyOp (by simp [substOps]) h ?_)
          simpa using hq
      case Question =>
        refine .bind ((snd_substWord hR p _ _).mono fun w r b' h => ?_)
        refine .ite (fun hq => ?_) (fun hq => ?_)
        · simp at hq
          obtain ⟨⟨rfl⟩, rfl⟩ := hq
          exact .pure (snd_lenSpecial h (by simp))
        · refine .pure (.curlyOp (by simp [substOps]) h ?_)
          simpa using hq
      all_goals first
        | exact .fail
        | exact .bind ((snd_substWord hR p _ _).mono fun w r b' h =>
            .pure (.curlyOp (by simp [substOps]) h (by simp)))

theorem snd_curly (hR : SndRec R) (p : SourcePos) (q : DefaultParameter) :
    Sound (.curly q) (paramSubstCurly R p q) := by
  intro l b
  unfold paramSubstCurly
  refine .peek ?_
  have hbody := snd_curlyBody hR p q l b
  have hlen : ∀ t l', l = t :: l' →
      t ∉ [Token.Percent, .Pound, .Colon, .Dash, .Equals, .Question, .Plus, .CurlyClose] →
      Snd (if q = .Pound then do
          let param ← parameterInner
          eat .CurlyClose
          pure (.Subst (.Len param))
        else paramSubstBodyRaw R q p) l b fun a r b' => Reads (B := B) (.curly q) b l a r b' := by
    intro t l' hl ht
    refine .ite (fun hq => ?_) (fun _ => hbody)
    subst hq
    refine snd_parameterInner fun t' q r hr hin => .eat fun r' hr' => .pure ?_
    subst hr hr'
    cases hl
    exact .curlyLen hin ht
  cases l with
  | nil =>
    dsimp only [List.head?_nil]
    refine .ite (fun hq => ?_) (fun _ => hbody)
    rw [if_neg (by simp)]
    refine snd_parameterInner fun t q r hr => by cases hr
  | cons t l =>
    dsimp only [List.head?_cons]
    cases t
    case Percent =>
      refine Snd.next (.eatMaybe (fun r hr => ?_) (fun h => ?_))
      · subst hr
        exact .bind ((snd_substWord hR p _ _).mono fun w r b' h => .pure (.curlyPercent2 h))
      · exact .bind ((snd_substWord hR p _ _).mono fun w r b' h' => .pure (.curlyPercent h h'))
    case Pound =>
      refine Snd.next (.eatMaybe (fun r hr => ?_) (fun h => ?_))
      · subst hr
        exact .bind ((snd_substWord hR p _ _).mono fun w r b' h => .pure (.curlyPound2 h))
      · refine .bind ((snd_substWord hR p _ _).mono fun w r b' h' => ?_)
        refine .ite (fun hq => ?_) (fun hq => ?_)
        · simp at hq
          obtain ⟨rfl, rfl⟩ := hq
          exact .pure (snd_lenSpecial h' (by simp))
        · refine .pure (.curlyPound h h' ?_)
          rintro ⟨rfl, rfl⟩
          simp at hq
    case Colon => refine .ite (fun hq => ?_) (fun _ => hbody); rw [if_pos (by simp)]; exact hbody
    case Dash => refine .ite (fun hq => ?_) (fun _ => hbody); rw [if_pos (by simp)]; exact hbody
    case Equals => refine .ite (fun hq => ?_) (fun _ => hbody); rw [if_pos (by simp)]; exact hbody
    case Question => refine .ite (fun hq => ?_) (fun _ => hbody); rw [if_pos (by simp)]; exact hbody
    case Plus => refine .ite (fun hq => ?_) (fun _ => hbody); rw [if_pos (by simp)]; exact hbody
    case CurlyClose => refine .ite (fun hq => ?_) (fun _ => hbody); rw [if_pos (by simp)]; exact hbody
    all_goals
      have h := hlen _ _ rfl (by simp)
      refine .ite (fun hq => ?_) (fun _ => hbody)
      rw [if_pos hq] at h
      rw [if_neg (by simp)]
      exact h

theorem snd_subshell (hR : SndRec R) (ok : Bool) : Sound (.subshell ok) (subshellInternal R ok) := by
  intro l b
  unfold subshellInternal
  refine .getPos fun _ => .eat fun r hr => ?_
  subst hr
  refine .bind ((hR.group parenDelim (by intro t ht; simp [parenDelim] at ht; subst ht; simp) _ _).mono ?_)
  intro g r' b' hg
  refine .peek ?_
  cases r' with
  | nil => exact .fail
  | cons t r' =>
    dsimp only [List.head?_cons]
    refine .ite (fun h => ?_) fun _ => .unexpected
    simp only [Bool.and_eq_true, decide_eq_true_eq, Bool.or_eq_true] at h
    obtain ⟨rfl, h⟩ := h
    refine Snd.next (.pure (.subshell hg ?_))
    intro he
    simpa [he] using h

theorem unlift_skip {X R : List Spec.PTok} (h1 : Spec.Blanks X) (h2 : Spec.NoBlank R) :
    Skip (toks (X ++ R)) (toks R) := ⟨toks X, by simp, unlift_blanks h1, unlift_noBlank h2⟩

theorem blanks_skip {X : List Spec.PTok} {R r : List Token} (h1 : Spec.Blanks X) (h2 : Skip R r) :
    Skip (toks X ++ R) r := by
  obtain ⟨bs, rfl, hb, hn⟩ := h2
  refine ⟨toks X ++ bs, by simp, ?_, hn⟩
  replace h1 := unlift_blanks h1
  generalize toks X = x at h1
  induction h1 with
  | nil => exact hb
  | ws _ ih => exact .ws ih
  | escaped _ ih => exact .escaped ih

theorem snd_arith {β : Type} {l : List Token} {b : B.State} {f : DefaultArithmetic → P AIter B β}
    {Q : β → List Token → B.State → Prop}
    (h : ∀ a u bs r, l = u ++ bs ++ r → Spec.Expr .munch .seq (anywhere u) a → Blanks bs →
      Snd (f a) r b Q) : Snd (arithmeticSubstitution >>= f) l b Q := by
  refine .bind ?_
  intro L e hL a s' heq
  obtain ⟨v, r, rfl, rfl, u, bs, rfl, h3, h4, -⟩ := post_arithmeticSubstitution L a s' heq
  refine h a (toks u) (toks bs) (toks r) (by rw [← hL]; simp) ?_ (unlift_blanks h3)
  exact same_expr h4 _ (anywhere_toks u)

theorem blanks_append' {x y : List Token} (hx : Blanks x) (hy : Blanks y) : Blanks (x ++ y) := by
  induction hx with
  | nil => exact hy
  | ws _ ih => exact .ws ih
  | escaped _ ih => exact .escaped ih

theorem snd_substArith (l : List Token) (b : B.State) :
    Snd (paramSubstArith : P AIter B _) l b fun a r b' => Reads (B := B) .param b (.Dollar :: l) a r b' := by
  unfold paramSubstArith
  refine .eat fun r hr => ?_
  subst hr
  refine .eat fun r hr => ?_
  subst hr
  refine .skip fun l' hl => .bind (.peek ?_)
  refine .ite (fun h => .pure ?_) fun h => ?_
  · refine .skip fun l1 h1 => .eat fun l2 hl2 => .skip fun l3 h3 => .eat fun r' hr' => .pure ?_
    subst hl2 hr'
    refine .noArithmetic (l2 := l2) ?_ h3
    have := h1.of_noBlank hl.noBlank
    rw [this]
    exact hl
  · refine snd_arith fun a u bs r1 hl' ha hb => .pure ?_
    refine .skip fun l1 h1 => .eat fun l2 hl2 => .skip fun l3 h3 => .eat fun r' hr' => .pure ?_
    subst hl2 hr'
    refine .arithmetic (u := u) (l1 := bs ++ r1) hl ?_ (by rw [hl', List.append_assoc]) ha ?_ h3
    · rintro r rfl; exact h rfl
    · obtain ⟨x, rfl, hx, hn⟩ := h1
      exact ⟨bs ++ x, by simp, blanks_append' hb hx, hn⟩

theorem snd_substRaw (hR : SndRec R) (l : List Token) (b : B.State) :
    Snd (parameterSubstitutionRaw R) l b fun a r b' => Reads (B := B) .param b (.Dollar :: l) a r b' := by
  unfold parameterSubstitutionRaw
  refine .getPos fun p => .peek ?_
  cases l with
  | nil => exact .unexpected
  | cons t l =>
    dsimp only [List.head?_cons]
    cases t
    case ParenOpen =>
      refine .lookahead mpSecondParenOpen_it fun it => ?_
      rw [mpSecondParenOpen_val]
      refine .ite (fun h => snd_substArith _ _) fun h => ?_
      refine .bind ((snd_subshell hR true _ _).mono fun g r b' hg => .pure (.commandSubst ?_ hg))
      rintro l' ⟨⟩
      simp at h
    case CurlyOpen =>
      refine Snd.next (snd_parameterInner fun t q r hr hin => ?_)
      subst hr
      exact (snd_curly hR p q _ _).mono fun w r b' h => .braced hin h
    all_goals exact .unexpected

theorem snd_param (hR : SndRec R) : Sound .param (parameterRaw R) := by
  intro l b
  unfold parameterRaw
  refine .getPos fun p => ?_
  cases l with
  | nil => exact .nextNil .fail
  | cons t l =>
    refine Snd.next ?_
    cases t
    case ParamPositional q => exact .pure .positional
    case Dollar =>
      refine .peek ?_
      refine .ite (fun h => ?_) fun h => ?_
      · cases l with
        | nil => cases h
        | cons t l =>
          refine snd_parameterInner fun t' q r hr hin => .pure ?_
          cases hr
          cases hin with
          | name hn => exact .parameter hn
          | number => cases h
      · refine .ite (fun _ => snd_substRaw hR _ _) fun hp => .pure (.loneDollar ?_)
        rintro t r' rfl
        simp only [List.head?_cons, Option.some.injEq, Bool.or_eq_true, decide_eq_true_eq, not_or] at hp
        exact ⟨hp.1, hp.2, fun q hq => h (paramName_start hq)⟩
    all_goals exact .fail

end
end Conch.Gram
