import Verif.PropsEmbed
import Verif.PropsNl
/-!
# Property C55: commands in backticks
-/
namespace Conch
open Spec Gram

/-! ## Specification -/

/-- `Ticked t p`: between backticks the text `t` is written as `p`: a backtick and a dollar sign may have a backslash
before them, a backslash before a backtick, a dollar sign or a backslash must be doubled, one before a quote or a
newline may be. -/
inductive Spec.Ticked : Str → Str → Prop
  | nil : Ticked [] []
  | char {x t p} : x ∉ ['\\', '`'] → Ticked t p → Ticked (x :: t) (x :: p)
  | tick {t p} : Ticked t p → Ticked ('`' :: t) ('\\' :: '`' :: p)
  | dollar {t p} : (∀ c, t.head? = some c → c ∉ "0123456789".toList) → Ticked t p → Ticked ('$' :: t) ('\\' :: '$' :: p)
  | keep {x t p} : x ∉ ['\\', '`', '$'] → Ticked t p → Ticked ('\\' :: x :: t) ('\\' :: x :: p)
  | double {x t p} : x ∈ ['\'', '"', '\n'] → Ticked t p → Ticked ('\\' :: x :: t) ('\\' :: '\\' :: x :: p)
  | triple {x t p} : x ∈ ['\\', '`', '$'] → Ticked t p → Ticked ('\\' :: x :: t) ('\\' :: '\\' :: '\\' :: x :: p)

/-- The word that is the substitution of commands. -/
def Spec.substWordOf (cs : List SCommand) : SWord := .mk (.Single (.Simple (.Subst (.Command cs))))

/-- A text in backticks. -/
def Spec.tickText (p : Str) : Str := '`' :: (p ++ ['`'])

/-! ## Unescaping -/

theorem unescape_nil' : Gram.unescape [] = [] := rfl

theorem unescape_other {x : Token} (h : x ≠ .Backslash) (xs : List Token) :
    Gram.unescape (x :: xs) = x :: Gram.unescape xs := by
  simp only [Gram.unescape, anywhere, List.map_cons]
  rw [unescape_cons (by simpa using h)]
  rfl

theorem unescape_special {y : Token} (h : y = .Backslash ∨ y = .Dollar ∨ y = .Backtick) (xs : List Token) :
    Gram.unescape (.Backslash :: y :: xs) = y :: Gram.unescape xs := by
  simp [Gram.unescape, anywhere, Spec.unescape, h]

theorem unescape_keep {y : Token} (h : ¬ (y = .Backslash ∨ y = .Dollar ∨ y = .Backtick)) (xs : List Token) :
    Gram.unescape (.Backslash :: y :: xs) = .Backslash :: y :: Gram.unescape xs := by
  simp [Gram.unescape, anywhere, Spec.unescape, h]

theorem unescape_plain {us : List Token} (h : ∀ t ∈ us, t ≠ .Backslash) (xs : List Token) :
    Gram.unescape (us ++ xs) = us ++ Gram.unescape xs := by
  induction us with
  | nil => rfl
  | cons t us ih =>
    rw [List.cons_append, unescape_other (h t (by simp)), ih fun t ht => h t (by simp [ht])]
    rfl

variable {cc : CharClass}

theorem lexSingle_op {c : Char} {t : Token} (h : Single cc c t) : lexSingle cc c = t :=
  single_unique (lexSingle_spec cc c) h

theorem lex_esc (cc : CharClass) (c : Char) (s : Str) : lex cc ('\\' :: c :: s) = .Backslash :: lexSingle cc c :: lex cc s := by
  rw [C03_escape_protects_one, lex_single]; rfl

/-- Text up to what needs care. -/
theorem ticked_split {t p : Str} (h : Ticked t p) :
    ∃ u t' p', t = u ++ t' ∧ p = u ++ p' ∧ '\\' ∉ u ∧ Ticked t' p' ∧
      (t' = [] ∧ p' = [] ∨ ∃ p1, p' = '\\' :: p1 ∧ ∃ c r, t' = c :: r ∧ c ∈ ['\\', '`', '$']) := by
  induction h with
  | nil => exact ⟨[], [], [], rfl, rfl, by simp, .nil, .inl ⟨rfl, rfl⟩⟩
  | char hx _ ih =>
    obtain ⟨u, t', p', rfl, rfl, h1, h2, h3⟩ := ih
    exact ⟨_ :: u, t', p', rfl, rfl, by simp at hx; simp [h1]; exact fun e => hx.1 e.symm, h2, h3⟩
  | tick h => exact ⟨[], _, _, rfl, rfl, by simp, .tick h, .inr ⟨_, rfl, _, _, rfl, by simp⟩⟩
  | dollar h1 h => exact ⟨[], _, _, rfl, rfl, by simp, .dollar h1 h, .inr ⟨_, rfl, _, _, rfl, by simp⟩⟩
  | keep h1 h => exact ⟨[], _, _, rfl, rfl, by simp, .keep h1 h, .inr ⟨_, rfl, _, _, rfl, by simp⟩⟩
  | double h1 h => exact ⟨[], _, _, rfl, rfl, by simp, .double h1 h, .inr ⟨_, rfl, _, _, rfl, by simp⟩⟩
  | triple h1 h => exact ⟨[], _, _, rfl, rfl, by simp, .triple h1 h, .inr ⟨_, rfl, _, _, rfl, by simp⟩⟩

theorem no_backslash {s : Str} (h : '\\' ∉ s) : ∀ t ∈ lex cc s, t ≠ .Backslash := by
  rintro t ht rfl
  have := C01_concat_tokens cc s
  apply h
  rw [← this]
  simp only [concatTokens, List.mem_flatMap]
  exact ⟨_, ht, by simp [Token.asStr]⟩

theorem tick_breaker : ∀ c ∈ ['\\', '`', '$'], c ∈ breakers := by decide

theorem ticked_lex (hs : cc.Sane) : ∀ (n : Nat) {t p : Str}, p.length ≤ n → Ticked t p →
    Gram.unescape (lex cc p) = lex cc t := by
  intro n
  induction n with
  | zero =>
    intro t p hl h
    obtain rfl : p = [] := by simpa using hl
    cases h
    rw [lex_nil]; rfl
  | succ n ih =>
    intro t p hl h
    obtain ⟨u, t', p', rfl, rfl, hu, h', hc⟩ := ticked_split h
    clear h
    rcases hc with ⟨rfl, rfl⟩ | ⟨p1, rfl, c, r, rfl, hcr⟩
    · have := unescape_plain (no_backslash (cc := cc) hu) []
      simpa [unescape_nil'] using this
    rw [lex_breaker hs u _ _ hu (by decide), lex_breaker hs u _ _ hu (tick_breaker _ hcr),
      unescape_plain (no_backslash hu)]
    congr 1
    have hl' : p1.length ≤ n := by simp at hl; omega
    generalize ep : '\\' :: p1 = p' at h'
    generalize et : c :: r = t' at h'
    have hbs : lexSingle cc '\\' = .Backslash := lexSingle_op .backslash
    have htk : lexSingle cc '`' = .Backtick := lexSingle_op (.op (by decide))
    have hdl : lexSingle cc '$' = .Dollar := lexSingle_op (.op (by decide))
    cases h' with
    | nil => cases ep
    | char hx => cases ep; simp at hx
    | @tick t p h =>
      cases ep
      rw [lex_esc, htk, unescape_special (by simp), ih (by simp at hl'; omega) h,
        lex_lone hs (c := '`') (t := .Backtick) (by decide) (by decide)]
    | @dollar t p h1 h =>
      cases ep
      rw [lex_esc, hdl, unescape_special (by simp), ih (by simp at hl'; omega) h, lex_dollar hs]
      intro c hc
      by_contra hd
      have hd : isDigit c = true := by simpa using hd
      refine h1 c hc ?_
      simp only [isDigit, Bool.and_eq_true, decide_eq_true_eq] at hd
      have h3 : 48 ≤ c.toNat ∧ c.toNat ≤ 57 := hd
      have h4 : ∀ m, m ≤ 57 → 48 ≤ m → Char.ofNat m ∈ "0123456789".toList := by decide
      have := h4 c.toNat h3.2 h3.1
      rwa [Char.ofNat_toNat] at this
    | @keep x t p h1 h =>
      cases ep
      rw [lex_esc, lex_esc, unescape_keep, ih (by simp at hl'; omega) h]
      have hsp := lexSingle_spec cc x
      rintro (e | e | e) <;> rw [e] at hsp
      · have := single_asStr hsp; simp [Token.asStr] at this; simp [← this] at h1
      · have := single_asStr hsp; simp [Token.asStr] at this; simp [← this] at h1
      · have := single_asStr hsp; simp [Token.asStr] at this; simp [← this] at h1
    | @double x t p h1 h =>
      cases ep
      rw [lex_esc, hbs, unescape_special (by simp)]
      have hlone : ∀ s, lex cc (x :: s) = lexSingle cc x :: lex cc s := by
        simp only [List.mem_cons, List.not_mem_nil, or_false] at h1
        rcases h1 with rfl | rfl | rfl
        · intro s; rw [lexSingle_op (.op (by decide : (['\''], Token.SingleQuote) ∈ operators)), lex_lone hs (c := '\'') (t := .SingleQuote) (by decide) (by decide)]
        · intro s; rw [lexSingle_op (.op (by decide : (['"'], Token.DoubleQuote) ∈ operators)), lex_lone hs (c := '"') (t := .DoubleQuote) (by decide) (by decide)]
        · intro s; rw [lexSingle_op (.op (by decide : (['\n'], Token.Newline) ∈ operators)), lex_lone hs (c := '\n') (t := .Newline) (by decide) (by decide)]
      have hne : lexSingle cc x ≠ .Backslash := by
        intro e
        have := single_asStr (lexSingle_spec cc x)
        rw [e] at this
        simp [Token.asStr] at this
        simp [← this] at h1
      rw [hlone, unescape_other hne, ih (by simp at hl'; omega) h, lex_esc]
    | @triple x t p h1 h =>
      cases ep
      rw [lex_esc, hbs, unescape_special (by simp), lex_esc]
      have : lexSingle cc x = .Backslash ∨ lexSingle cc x = .Dollar ∨ lexSingle cc x = .Backtick := by
        simp only [List.mem_cons, List.not_mem_nil, or_false] at h1
        rcases h1 with rfl | rfl | rfl <;> simp [hbs, hdl, htk]
      rw [unescape_special this, ih (by simp at hl'; omega) h, lex_esc]

/-- The backtick after the text is a token of its own. -/
theorem ticked_end (hs : cc.Sane) (rest : Str) : ∀ (n : Nat) {t p : Str}, p.length ≤ n → Ticked t p →
    lex cc (p ++ '`' :: rest) = lex cc p ++ .Backtick :: lex cc rest := by
  intro n
  have hb : ∀ rest, lex cc ('`' :: rest) = .Backtick :: lex cc rest :=
    lex_lone hs (c := '`') (t := .Backtick) (by decide) (by decide)
  induction n with
  | zero =>
    intro t p hl h
    obtain rfl : p = [] := by simpa using hl
    rw [List.nil_append, hb, lex_nil]; rfl
  | succ n ih =>
    intro t p hl h
    obtain ⟨u, t', p', rfl, rfl, hu, h', hc⟩ := ticked_split h
    clear h
    rcases hc with ⟨rfl, rfl⟩ | ⟨p1, rfl, c, r, rfl, hcr⟩
    · rw [List.append_nil, lex_breaker hs u _ _ hu (by decide), hb]
    rw [List.append_assoc, List.cons_append, lex_breaker hs u _ _ hu (by decide), lex_breaker hs u _ _ hu (by decide),
      List.append_assoc]
    congr 1
    have hl' : p1.length ≤ n := by simp at hl; omega
    generalize ep : '\\' :: p1 = p' at h'
    generalize et : c :: r = t' at h'
    cases h' with
    | nil => cases ep
    | char hx => cases ep; simp at hx
    | tick h => cases ep; rw [List.cons_append, lex_esc, lex_esc, ih (by simp at hl'; omega) h]; rfl
    | dollar h1 h => cases ep; rw [List.cons_append, lex_esc, lex_esc, ih (by simp at hl'; omega) h]; rfl
    | keep h1 h => cases ep; rw [List.cons_append, lex_esc, lex_esc, ih (by simp at hl'; omega) h]; rfl
    | @double x t p h1 h =>
      cases ep
      have hlone : ∀ s, lex cc (x :: s) = lexSingle cc x :: lex cc s := by
        simp only [List.mem_cons, List.not_mem_nil, or_false] at h1
        rcases h1 with rfl | rfl | rfl
        · intro s; rw [lexSingle_op (.op (by decide : (['\''], Token.SingleQuote) ∈ operators)), lex_lone hs (c := '\'') (t := .SingleQuote) (by decide) (by decide)]
        · intro s; rw [lexSingle_op (.op (by decide : (['"'], Token.DoubleQuote) ∈ operators)), lex_lone hs (c := '"') (t := .DoubleQuote) (by decide) (by decide)]
        · intro s; rw [lexSingle_op (.op (by decide : (['\n'], Token.Newline) ∈ operators)), lex_lone hs (c := '\n') (t := .Newline) (by decide) (by decide)]
      rw [List.cons_append, List.cons_append, lex_esc, lex_esc, hlone, hlone, ih (by simp at hl'; omega) h]; rfl
    | triple h1 h =>
      cases ep
      rw [List.cons_append, List.cons_append, List.cons_append, lex_esc, lex_esc, lex_esc, lex_esc, ih (by simp at hl'; omega) h]; rfl

/-! ## Groups without delimiters are whole programs -/

theorem prog_group {l : List Token} {cs : List SCommand} (h : Prog (B := DefaultBuilder) () l cs) :
    ∃ ns, RD (.group noDelim) l ⟨cs, ns⟩ [] := by
  obtain ⟨_, h⟩ := h.to
  exact h.group (cfg := noDelim) ⟨by simp [noDelim], by simp [noDelim], by simp [noDelim]⟩ (.inr rfl)
    (by simp [groupEnds, noDelim])

theorem pieces_newline {b b' : DefaultBuilder.State} {l r : List Token} {ws}
    (h : Reads (B := DefaultBuilder) (.pieces none) b (.Newline :: l) ws r b') : ws = [] := by
  cases h with
  | endWord => rfl
  | consPiece _ h _ =>
    obtain ⟨t, l', e, h1, -⟩ := h.piece_head
    cases e
    cases h1

theorem tick_piece {b b' : DefaultBuilder.State} {u q l r : List Token} (hl : l = .Backtick :: u ++ .Backtick :: q)
    (hb : Body .Backtick (anywhere u)) {w} (h : Reads (B := DefaultBuilder) .piece b l w r b') :
    r = q ∧ ∃ g, w = .Simple (.CommandSubst g) ∧ Reads (B := DefaultBuilder) (.group noDelim) b (Gram.unescape u) g [] b' := by
  cases h with
  | pieceBacktick h =>
    generalize e : l = l0 at h
    cases h with
    | @backtick _ u' _ g _ h1 h2 =>
      rw [hl] at e
      injection e with _ e
      have k1 := TopUnit.nested (o := (⟨0, 1, 1⟩, .Backtick)) (q := ⟨0, 1, 1⟩) (rest := anywhere q) (by constructor <;> decide) hb
      have k2 := TopUnit.nested (o := (⟨0, 1, 1⟩, .Backtick)) (q := ⟨0, 1, 1⟩) (rest := anywhere r) (by constructor <;> decide) h1
      have e' := congrArg anywhere e
      simp only [anywhere, List.map_append, List.map_cons] at e' k1 k2
      obtain ⟨k3, k4⟩ := topUnit_unique k1 k2 (by simpa using e')
      simp only [List.cons.injEq, true_and, List.append_cancel_right_eq] at k3
      have : u = u' := by
        have := congrArg (List.map Prod.snd) k3
        simpa [Function.comp_def] using this
      subst this
      have : q = r := by
        have := congrArg (List.map Prod.snd) k4
        simpa [Function.comp_def] using this
      subst this
      exact ⟨rfl, _, rfl, h2⟩
  | pieceParam h => 
    subst hl
    cases h
  | literal h => cases hl; simp [literalTokens] at h
  | special h =>
    cases hl
    simp [specialTokens] at h
  | name => cases hl
  | text => cases hl
  | escaped => cases hl
  | singleQuoted => cases hl
  | doubleQuoted => cases hl

theorem tick_word {b b' : DefaultBuilder.State} {u q lt l r : List Token} {W : Option SWord} {cs : List SCommand}
    (hb : Body .Backtick (anywhere u)) (hu : Gram.unescape u = lt)
    (h : Reads (B := DefaultBuilder) .wordP b l W r b') (hl : l = .Backtick :: u ++ .Backtick :: .Newline :: q)
    (hW : W = some (substWordOf cs)) : Prog (B := DefaultBuilder) b lt cs := by
  cases h with
  | wordPNone => cases hW
  | @wordPSome _ _ k _ _ _ _ h1 h2 =>
    generalize ek : some k = k' at h1
    cases h1 with
    | noWord => cases ek
    | someWord k1 k2 k3 =>
      have := k1.of_noBlank (by rw [hl]; simp [Gram.NoBlank])
      subst this
      cases k3 with
      | endWord k4 => cases ek
      | endEscaped => cases ek
      | endBackslash => cases ek
      | consPiece _ k4 k5 =>
        obtain ⟨rfl, g, rfl, k6⟩ := tick_piece hl hb k4
        have := pieces_newline k5
        subst this
        cases ek
        cases congrArg Prod.fst h2
        have := group_prog (B := DefaultBuilder) (fun _ _ => ⟨_, rfl⟩) k6 _ rfl .rfl rfl
        rw [hu] at this
        have hg : g.commands = cs := by
          injection hW with hW
          have hw : substWordOf g.commands = substWordOf cs := hW
          simpa [substWordOf] using hw
        rw [← hg]
        exact this

section
variable (hs : cc.Sane)
include hs

/-- **C55.** A text in backticks is the substitution of the commands the parser yields from the text alone, for
every text, and there is no such word if the text has an error. `t` is written as `p`, in which quotes and
parentheses are closed. -/
theorem C55_backticks (t p : Str) (ht : Ticked t p) (hp : Spans '`' p) (cs : List SCommand) :
    WholeWord cc (tickText p) (substWordOf cs) ↔ ParsesTo cc t cs := by
  have hb : ∀ rest, lex cc ('`' :: rest) = .Backtick :: lex cc rest :=
    lex_lone hs (c := '`') (t := .Backtick) (by decide) (by decide)
  have hend := fun rest => ticked_end hs rest _ (Nat.le_refl _) ht
  have hbody : Body .Backtick (anywhere (lex cc p)) := by
    obtain ⟨xs, h1, h2⟩ := spans_lex hs _ (e := '`') (k := .Backtick) (by decide) (Nat.le_refl _) hp []
    rw [hend, lex_nil] at h1
    obtain rfl : lex cc p = xs := (List.append_inj_left' h1 rfl)
    exact h2
  have hun := ticked_lex hs _ (Nat.le_refl _) ht
  have hall : ∀ q, lex cc (tickText p ++ q) = .Backtick :: lex cc p ++ .Backtick :: lex cc q := by
    intro q
    have : tickText p ++ q = '`' :: (p ++ '`' :: q) := by simp [tickText]
    rw [this, hb, hend]; rfl
  rw [parsesTo_iff]
  constructor
  · intro h
    have h := wordP_iff.1 (h.reads ['\n'] (.inr rfl))
    rw [hall] at h
    rw [show lex cc ['\n'] = .Newline :: lex cc [] from lex_lone hs (c := '\n') (t := .Newline) (by decide) (by decide) []] at h
    exact tick_word hbody hun h rfl rfl
  · intro h
    obtain ⟨ns, h⟩ := prog_group h
    refine ⟨⟨'`', _, rfl, by decide, (hs.op _ (.inl (by rw [opStart_iff]; decide))).2 (by decide)⟩, fun q hr => ?_⟩
    have hwe : WordEnd cc q := by
      cases q with
      | nil => simp at hr
      | cons c q =>
        rcases hr with hr | hr <;> cases hr
        · exact .inr ⟨_, _, rfl, .inl ⟨hs.space, by decide⟩⟩
        · exact tail_op (by decide)
    rw [wordP_iff, hall]
    refine .wordPSome (Reads.someWord (ws := [_]) (.refl (by simp [Gram.NoBlank])) (by simp) (.consPiece (by simp)
      (.pieceBacktick (.backtick hbody (by rw [hun]; exact h))) (.endWord (hwe.ends hs)))) rfl

/-- **C55.** Backticks and `$(…)` mean the same: a script with commands `cs` gives the same word both ways. -/
theorem C55_same_as_dollar (t p : Str) (ht : Ticked t p) (hp : Spans '`' p) (cs : List SCommand) (h : ParsesTo cc t cs)
    (hhere : ¬ ['<', '<'] <:+: t) (hlast : t.getLast? ≠ some '\\') (h0 : t.head? ≠ some '(') :
    WholeWord cc (tickText p) (substWordOf cs) ∧ WholeWord cc (substText t) (substWordOf cs) :=
  ⟨(C55_backticks hs t p ht hp cs).2 h, C53_substitution hs t cs
    (C53_whole_of_parse cc hs t cs hhere hlast ((C52_final_newline cc hs t hhere hlast cs).1 h)) h0⟩

end

/-! ## A concrete case -/

/-- A text with a backtick, a parameter, a quote and escapes. -/
def tickSample : Str := "echo $x \\$ `ls $y` 'a' \\\" b | c".toList

/-- The text between backticks. -/
def tickSampleIn : Str := "echo \\$x \\\\\\$ \\`ls $y\\` 'a' \\\" b | c".toList

theorem tickSample_ticked : Ticked tickSample tickSampleIn := by
  have h1 : tickSample = ['e', 'c', 'h', 'o', ' ', '$', 'x', ' ', '\\', '$', ' ', '`', 'l', 's', ' ', '$', 'y', '`', ' ', '\'', 'a', '\'', ' ',
    '\\', '"', ' ', 'b', ' ', '|', ' ', 'c'] := by decide
  have h2 : tickSampleIn = ['e', 'c', 'h', 'o', ' ', '\\', '$', 'x', ' ', '\\', '\\', '\\', '$', ' ', '\\', '`', 'l', 's', ' ', '$', 'y', '\\', '`', ' ',
    '\'', 'a', '\'', ' ', '\\', '"', ' ', 'b', ' ', '|', ' ', 'c'] := by decide
  rw [h1, h2]
  repeat first
    | exact .nil
    | refine .char (by decide) ?_
    | refine .tick ?_
    | refine .dollar (by decide) ?_
    | refine .keep (by decide) ?_
    | refine .triple (by decide) ?_

theorem tickSample_spans : Spans '`' tickSampleIn := by
  have h2 : tickSampleIn = ['e', 'c', 'h', 'o', ' ', '\\', '$', 'x', ' ', '\\', '\\', '\\', '$', ' ', '\\', '`', 'l', 's', ' ', '$', 'y', '\\', '`', ' '] ++
    '\'' :: (['a'] ++ '\'' :: [' ', '\\', '"', ' ', 'b', ' ', '|', ' ', 'c']) := by decide
  rw [h2]
  simp only [List.cons_append, List.nil_append]
  repeat first
    | exact .nil
    | refine .escaped ?_
    | refine .char (by decide) (by decide) (by decide) ?_
    | refine .dollar (by decide) ?_
    | refine .quoted (q := ['a']) (by decide) (by decide) ?_

/-- The sample is one command, and in backticks one word. -/
example : ∃ c : SCommand, ParsesTo ascii tickSample [c] ∧ WholeWord ascii (tickText tickSampleIn) (substWordOf [c]) := by
  have key : ((script 3 ⟨some (PSt.new (I := CIter) (B := DefaultBuilder) (lex ascii tickSample) ())⟩).map List.length) = some 1 := by
    decide +kernel
  obtain ⟨cs, h1, h2⟩ := Option.map_eq_some_iff.1 key
  obtain ⟨c, rfl⟩ := List.length_eq_one_iff.1 h2
  have hp : ParsesTo ascii tickSample [c] := script_sound h1
  exact ⟨c, hp, (C55_backticks ascii_sane _ _ tickSample_ticked tickSample_spans _).2 hp⟩

/-! ## Where it fails -/

/-- The text of the arguments of the only command in a substitution. -/
def substArgs (src : String) : Option (List Str) :=
  match (Method.word.run (PSt.new (I := CIter) (B := DefaultBuilder) (lex ascii src.toList) ())).1 with
  | .ok (some (.mk (.Single (.Simple (.Subst (.Command [.mk (.List ⟨.Single (.Simple ⟨[], ws⟩), []⟩)])))))) =>
     some (ws.map fun w => match w with
      | .CmdWord (.mk (.Single (.Simple (.Literal s)))) => s
      | .CmdWord (.mk (.Single (.Simple (.Escaped s)))) => '\\' :: s
      | .CmdWord (.mk (.Single (.Simple (.Param (.Positional 1))))) => ['1']
      | _ => [])
  | _ => none

/-- **C55 needs its conditions**: the backslashes are removed from the tokens and not from the text
(parse/iter.rs:635-678). So the dollar sign of `\$1` is no longer part of a parameter, and the backslash that remains
of `\\&&` escapes two characters. -/
theorem C55_tokens_not_text :
    substArgs "`echo \\$1`" = some ["echo".toList, "$1".toList] ∧
    substArgs "$(echo $1)" = some ["echo".toList, ['1']] ∧
    substArgs "`echo \\\\&& b`" = some ["echo".toList, "\\&&".toList, ['b']] := by
  refine ⟨?_, ?_, ?_⟩ <;> decide +kernel

end Conch
