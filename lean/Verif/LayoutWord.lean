import Verif.LayoutLex
/-!
# Reading words, however they are written (C47)
-/
namespace Conch
open Spec Gram

section
variable {cc : CharClass}

/-! ## Expansions -/

variable (cc) in
/-- The text `t` is read as the expansion `e`, up to `rest`. -/
def ExpW (e : Syn .exp) (rest t : Str) : Prop :=
  ∃ k, (RD .param (lex cc t) k (lex cc rest) ∨ RD .backtick (lex cc t) k (lex cc rest)) ∧
    stringCore.simpleOf k = e.ast ∧ ∀ s, k ≠ .Literal s

/-- The tokens an expansion starts with. -/
def expToks : List Token :=
  [.Dollar, .Backtick, .ParamPositional .Zero, .ParamPositional .One, .ParamPositional .Two, .ParamPositional .Three,
   .ParamPositional .Four, .ParamPositional .Five, .ParamPositional .Six, .ParamPositional .Seven, .ParamPositional .Eight,
   .ParamPositional .Nine]

theorem exp_head {o : Bool} {e : Syn .exp} {rest t : Str} (h : Writes cc o e rest t) : ∃ c x, t = c :: x ∧ (c = '$' ∨ c = '`') := by
  cases h with
  | backticks => exact ⟨_, _, rfl, .inr rfl⟩
  | _ => exact ⟨_, _, rfl, .inl rfl⟩

theorem exp_first {o : Bool} {e : Syn .exp} {rest t : Str} (h : Writes cc o e rest t) :
    ∃ k l, lex cc t = k :: l ∧ k ∈ expToks := by
  obtain ⟨c, x, rfl, hc⟩ := exp_head h
  have k1 : ∀ c ∈ ['$', '`'], ∃ p ∈ operators, p.1.head? = some c := by decide
  have k2 : ∀ p ∈ operators, ∀ c ∈ ['$', '`'], p.1.head? = some c → p.2 ∈ expToks := by decide
  have hm : c ∈ ['$', '`'] := by rcases hc with rfl | rfl <;> decide
  obtain ⟨p, hp, hh, l, e⟩ := first_op (cc := cc) (k1 c hm) x
  exact ⟨p.2, l, e, k2 p hp c hm hh⟩

/-- A claim that was proved for one way to write an expansion. -/
theorem expW_of {e : Syn .exp} (h : ExpClaim cc e) {rest t : Str} (ht : t = e.text ++ rest) : ExpW cc e rest t := by
  subst ht
  obtain ⟨k, l, h1, h2, h3, h4⟩ := h rest
  rw [← h1] at h2
  exact ⟨k, .inl h2, h3, h4⟩

theorem expW_braced (hs : cc.Sane) (p : Parameter Str) (hp : ValidParam cc p) (rest : Str) :
    ExpW cc (.param p) rest ('$' :: '{' :: (paramText p ++ '}' :: rest)) :=
  expW_of (exp_param hs p hp) (by rw [text_param]; simp)

theorem expW_len (hs : cc.Sane) (p : Parameter Str) (hp : ValidParam cc p) (rest : Str) :
    ExpW cc (.len p) rest ('$' :: '{' :: '#' :: (paramText p ++ '}' :: rest)) :=
  expW_of (exp_len hs p hp) (by rw [text_len]; simp)

theorem expW_arith (hs : cc.Sane) (a : DefaultArithmetic) (ha : ArithOk cc a) (rest : Str) :
    ExpW cc (.arith a) rest ("$(( ".toList ++ (arithText a ++ (" ))".toList ++ rest))) :=
  expW_of (exp_arith hs a ha) (by rw [text_arith]; simp)

theorem expW_param {p : Parameter Str} {rest t : Str} (h : RD .param (lex cc t) (.Param p) (lex cc rest)) :
    ExpW cc (.param p) rest t := by
  refine ⟨.Param p, .inl h, ?_, by simp⟩
  simp only [Core.simpleOf, ast_param]; rw [mapParam_id]

theorem expW_short (hs : cc.Sane) {x rest : Str} (hx : Shape cc (.Name x)) (hr : NameStop cc rest) :
    ExpW cc (.param (.Var x)) rest ('$' :: (x ++ rest)) := by
  refine expW_param ?_
  have hd : ∀ c, (x ++ rest).head? = some c → isDigit c = false := by
    obtain ⟨c, w, rfl, hc, -⟩ := hx
    intro d hd; cases hd
    rw [← Bool.not_eq_true]
    intro hdig
    have := hs.digit _ hdig
    rcases hc with rfl | hc
    · revert hdig; decide
    · rw [hc] at this; cases this
  rw [lex_dollar hs hd, lex_name' hs hx hr]
  exact .parameter .var

theorem expW_special (hs : cc.Sane) {p : Parameter Str} {rest : Str} (hp : p ∈ [.At, .Star, .Pound, .Question, .Dash, .Bang]) :
    ExpW cc (.param p) rest ('$' :: (paramText p ++ rest)) := by
  refine expW_param ?_
  have key : ∀ (k : Token) (c : Char), k.asStr = [c] → (k.asStr, k) ∈ operators →
      (∀ p ∈ operators, k.asStr <+: p.1 → p.1 = k.asStr) → isDigit c = false → (k, p) ∈ specialParams →
      paramText p = [c] → RD .param (lex cc ('$' :: (paramText p ++ rest))) (.Param p) (lex cc rest) := by
    intro k c e h1 h2 h3 h4 h5
    have := lex_end hs k rest h1 h2
    rw [e] at this
    rw [h5, lex_dollar hs (by intro d hd; cases hd; exact h3), this]
    exact .parameter (.special h4)
  simp only [List.mem_cons, List.not_mem_nil, or_false] at hp
  rcases hp with rfl | rfl | rfl | rfl | rfl | rfl
  · exact key .At '@' rfl (by decide) (by decide) (by decide) (by simp [specialParams]) rfl
  · exact key .Star '*' rfl (by decide) (by decide) (by decide) (by simp [specialParams]) rfl
  · exact key .Pound '#' rfl (by decide) (by decide) (by decide) (by simp [specialParams]) rfl
  · exact key .Question '?' rfl (by decide) (by decide) (by decide) (by simp [specialParams]) rfl
  · exact key .Dash '-' rfl (by decide) (by decide) (by decide) (by simp [specialParams]) rfl
  · exact key .Bang '!' rfl (by decide) (by decide) (by decide) (by simp [specialParams]) rfl

theorem expW_pid (hs : cc.Sane) {rest : Str} (hr : NameStop cc rest) : ExpW cc (.param .Dollar) rest ('$' :: '$' :: rest) := by
  refine expW_param ?_
  have hd : ∀ c, rest.head? = some c → isDigit c = false := by
    intro c hc
    have := hr c hc
    simp only [CharClass.nameChar, Bool.or_eq_false_iff] at this
    exact this.1
  rw [lex_dollar hs (by intro d hd; cases hd; decide), lex_dollar hs hd]
  exact .parameter (.special (by simp [specialParams]))

theorem expW_digit (hs : cc.Sane) {n : Nat} {rest : Str} (hn : n < 10) :
    ExpW cc (.param (.Positional n)) rest ('$' :: (natDigits n ++ rest)) := by
  refine expW_param ?_
  have key : ∀ (d : Positional), ('$' :: natDigits n : Str) = (Token.ParamPositional d).asStr → d.asNum = n →
      ((Token.ParamPositional d).asStr, Token.ParamPositional d) ∈ operators →
      (∀ p ∈ operators, (Token.ParamPositional d).asStr <+: p.1 → p.1 = (Token.ParamPositional d).asStr) →
      RD .param (lex cc ('$' :: (natDigits n ++ rest))) (.Param (.Positional n)) (lex cc rest) := by
    intro d h1 h2 h3 h4
    have := lex_end hs (.ParamPositional d) rest h3 h4
    rw [← h1, List.cons_append] at this
    rw [this, ← h2]
    exact .positional
  match n, hn with
  | 0, _ => exact key .Zero (by decide) rfl (by decide) (by decide)
  | 1, _ => exact key .One (by decide) rfl (by decide) (by decide)
  | 2, _ => exact key .Two (by decide) rfl (by decide) (by decide)
  | 3, _ => exact key .Three (by decide) rfl (by decide) (by decide)
  | 4, _ => exact key .Four (by decide) rfl (by decide) (by decide)
  | 5, _ => exact key .Five (by decide) rfl (by decide) (by decide)
  | 6, _ => exact key .Six (by decide) rfl (by decide) (by decide)
  | 7, _ => exact key .Seven (by decide) rfl (by decide) (by decide)
  | 8, _ => exact key .Eight (by decide) rfl (by decide) (by decide)
  | 9, _ => exact key .Nine (by decide) rfl (by decide) (by decide)
  | n + 10, h => omega

/-! ## Parts of words -/

variable (cc) in
/-- The text `t` is read as the parts `p` of a word, up to `rest`. -/
def PartsW (p : Syn .parts) (rest t : Str) : Prop :=
  NotPlain cc rest → ∃ ks, PieceRun (lex cc t) ks (lex cc rest) ∧
    (merge coalesceWord ks).map stringCore.partOf = p.ast ∧
    (∀ v, .DoubleQuoted v ∈ ks → merge coalesceSimple v = v) ∧ (ks = [] ↔ p.isNil = true) ∧
    ∀ k ks', ks = k :: ks' → jointOf k = p.joint

/-- The characters other than ordinary ones that start parts of words. -/
def partChars : List Char := "\\*?~[]:'\"$`".toList

theorem partChars_not : ∀ c ∈ partChars, c = '\\' ∨ ∃ p ∈ operators, p.1.head? = some c := by decide

theorem notPlain_part {c : Char} {r : Str} (hc : c ∈ partChars) : NotPlain cc (c :: r) := by
  intro d r' e hp; cases e
  rcases partChars_not c hc with rfl | h
  · exact hp.1 rfl
  · exact hp.2.1 h

/-- The first character of a word. -/
theorem parts_head {p : Syn .parts} {rest t : Str} (h : Writes cc false p rest t) :
    (p = .nil ∧ t = rest) ∨ (∃ s r t', p = .lit s r ∧ t = s ++ t' ∧ Writes cc false r rest t') ∨
      (p.joint ≠ some .lit ∧ p.isNil = false ∧ ∃ c x, t = c :: x ∧ c ∈ partChars ∧ (c = '\\' → x ≠ [])) := by
  cases h with
  | nil => exact .inl ⟨rfl, rfl⟩
  | lit h => exact .inr (.inl ⟨_, _, _, rfl, rfl, h⟩)
  | esc => exact .inr (.inr ⟨by simp [Syn.joint], rfl, _, _, rfl, by decide, by simp⟩)
  | @glob g => refine .inr (.inr ⟨by simp [Syn.joint], rfl, _, _, rfl, ?_⟩); cases g <;> exact ⟨by decide, fun h => absurd h (by decide)⟩
  | single => exact .inr (.inr ⟨by simp [Syn.joint], rfl, _, _, rfl, by decide, by simp⟩)
  | double => exact .inr (.inr ⟨by simp [Syn.joint], rfl, _, _, rfl, by decide, by simp⟩)
  | exp he =>
    obtain ⟨c, x, rfl, hc⟩ := exp_head he
    exact .inr (.inr ⟨by simp [Syn.joint], rfl, c, _, rfl, by rcases hc with rfl | rfl <;> decide, by rcases hc with rfl | rfl <;> simp⟩)

theorem notPlain_text {p : Syn .parts} {t rest : Str} (h : Writes cc false p rest t) (hj : p.joint ≠ some .lit)
    (hr : NotPlain cc rest) : NotPlain cc t := by
  rcases parts_head h with ⟨rfl, rfl⟩ | ⟨_, _, _, rfl, -⟩ | ⟨-, -, c, x, rfl, hc, -⟩
  · exact hr
  · exact absurd rfl hj
  · exact notPlain_part hc

theorem partsW_nil {rest : Str} : PartsW cc .nil rest rest := by
  intro hr
  exact ⟨[], .nil, rfl, by simp, by simp [Syn.isNil], by simp⟩

theorem partsW_lit (hs : cc.Sane) {s rest t : Str} {r : Syn .parts} (h : LitText cc s) (hj : r.joint ≠ some .lit)
    (hw : Writes cc false r rest t) (ih : PartsW cc r rest t) : PartsW cc (.lit s r) rest (s ++ t) := by
  intro hr
  obtain ⟨ks, h1, h2, h3, h4, h5⟩ := ih hr
  have hne : lex cc s ≠ [] := by
    intro e
    have := C01_concat_tokens cc s
    rw [e] at this
    exact h.1 this.symm
  refine ⟨(lex cc s).map (fun t => .Simple (.Literal t.asStr)) ++ ks, ?_, ?_, ?_, ?_, ?_⟩
  · rw [lex_lit' hs h.2 (notPlain_text hw hj hr)]
    refine PieceRun.append ?_ h1
    have ht := lit_tokens hs h.2
    generalize lex cc s = u at ht
    induction u with
    | nil => exact .nil
    | cons t u ihu =>
      exact .cons (by rintro l' e; injection e with e _; exact (ht t (by simp)).ne.1 e) ((ht t (by simp)).plain.piece _ _)
        (ihu fun t h => ht t (by simp [h]))
  · rw [merge_lits hne ks (fun k' ks' e => by rw [h5 k' ks' e]; exact hj), C01_concat_tokens, List.map_cons, h2, ast_lit]
    rfl
  · intro v hv
    rcases List.mem_append.1 hv with hv | hv
    · simp at hv
    · exact h3 v hv
  · simp [Syn.isNil, hne]
  · intro k ks' e
    obtain ⟨t, u, hu⟩ := List.exists_cons_of_ne_nil hne
    rw [hu] at e
    cases e
    rfl

theorem partsW_one {p r : Syn .parts} {rest t t' : Str} {k : WordKind CK} {w} (ih : PartsW cc r rest t') (hnil : p.isNil = false)
    (hk : jointOf k = p.joint) (hjoint : p.joint = none ∨ r.joint ≠ p.joint) (ha : p.ast = w :: r.ast)
    (hw : stringCore.partOf k = w) (hd : ∀ v, k = .DoubleQuoted v → merge coalesceSimple v = v)
    (hr : (∀ l', lex cc t ≠ .CurlyClose :: l') ∧ RD .piece (lex cc t) k (lex cc t')) : PartsW cc p rest t := by
  intro he
  obtain ⟨ks, h1, h2, h3, h4, h5⟩ := ih he
  obtain ⟨r1, r2⟩ := hr
  refine ⟨k :: ks, .cons r1 r2 h1, ?_, ?_, by simp [hnil], ?_⟩
  · rw [merge_cons, List.map_cons, hw, h2, ha]
    rcases hjoint with h | h
    · exact .inl (hk.trans h)
    · exact .inr fun k' ks' e => by rw [h5 k' ks' e, hk]; exact h
  · intro v hv
    rcases List.mem_cons.1 hv with hv | hv
    · exact hd v hv.symm
    · exact h3 v hv
  · intro k' ks' e; cases e; exact hk

theorem partsW_esc {c : Char} {r : Syn .parts} {rest t : Str} (hc : c ≠ '\n') (ih : PartsW cc r rest t) :
    PartsW cc (.esc c r) rest ('\\' :: c :: t) := by
  have h1 := lexSingle_spec cc c
  have h2 := single_asStr h1
  refine partsW_one (k := .Simple (.Escaped (lexSingle cc c).asStr)) ih rfl rfl (.inl rfl) (ha := rfl) (by rw [h2]; rfl)
    (by simp) ?_
  rw [C03_escape_protects_one, lex_single]
  refine ⟨by simp, .escaped ?_⟩
  intro e
  rw [e] at h2
  cases h2
  exact hc rfl

theorem partsW_glob (hs : cc.Sane) {g : Glob} {r : Syn .parts} {rest t : Str} (ih : PartsW cc r rest t) :
    PartsW cc (.glob g r) rest (g.text :: t) := by
  have key : ∀ (k : Token) (w : SimpleWordKind CK), (k, w) ∈ specialTokens CK → (k.asStr, k) ∈ operators →
      (∀ p ∈ operators, k.asStr <+: p.1 → p.1 = k.asStr) → k.asStr = [g.text] → stringCore.simpleOf w = g.ast →
      (∀ s, w ≠ .Literal s) → PartsW cc (.glob g r) rest (g.text :: t) := by
    intro k w h1 h2 h3 h4 h5 h6
    refine partsW_one (k := .Simple w) (w := .Simple g.ast) ih rfl ?_ (.inl rfl) (ha := rfl) (by rw [← h5]; rfl)
      (by simp) ?_
    · show jointOf (.Simple w) = none
      unfold jointOf
      split
      · rename_i e; cases e; exact absurd rfl (h6 _)
      · rename_i e; cases e
      · rename_i e; cases e
      · rfl
    · have : g.text :: t = k.asStr ++ t := by rw [h4]; rfl
      rw [this, lex_end hs k _ h2 h3]
      refine ⟨?_, .special h1⟩
      rintro l' e; injection e with e _; subst e; simp [specialTokens] at h1
  cases g
  · exact key .Star .Star (by simp [specialTokens]) (by decide) (by decide) rfl rfl (by simp)
  · exact key .Question .Question (by simp [specialTokens]) (by decide) (by decide) rfl rfl (by simp)
  · exact key .Tilde .Tilde (by simp [specialTokens]) (by decide) (by decide) rfl rfl (by simp)
  · exact key .SquareOpen .SquareOpen (by simp [specialTokens]) (by decide) (by decide) rfl rfl (by simp)
  · exact key .SquareClose .SquareClose (by simp [specialTokens]) (by decide) (by decide) rfl rfl (by simp)
  · exact key .Colon .Colon (by simp [specialTokens]) (by decide) (by decide) rfl rfl (by simp)

theorem partsW_single (hs : cc.Sane) {s rest t : Str} {r : Syn .parts} (hq : '\'' ∉ s) (hj : r.joint ≠ some .single)
    (ih : PartsW cc r rest t) : PartsW cc (.single s r) rest ('\'' :: (s ++ '\'' :: t)) := by
  refine partsW_one (k := .SingleQuoted s) (w := .SingleQuoted s) ih rfl rfl (.inr hj) (ha := rfl) rfl (by simp) ?_
  obtain ⟨u, h1, h2, h3⟩ := lex_to_quote hs t s.length s (Nat.le_refl _) hq
  rw [lex_quote hs, h3]
  refine ⟨by simp, ?_⟩
  have := Reads.singleQuoted (B := DefaultBuilder) (b := ()) (r := lex cc t) h1
  rw [h2] at this
  exact this

theorem partsW_exp {e : Syn .exp} {r : Syn .parts} {rest t t' : Str} (hw : Writes cc false e t' t) (he : ExpW cc e t' t)
    (ih : PartsW cc r rest t') : PartsW cc (.exp e r) rest t := by
  intro hr
  obtain ⟨k, h2, h3, h4⟩ := he
  obtain ⟨ks, g1, g2, g3, g4, g5⟩ := ih hr
  obtain ⟨u, l, hu, hm⟩ := exp_first hw
  have hk : jointOf (.Simple k : WordKind CK) = none := by
    unfold jointOf
    split
    · rename_i e; cases e; exact absurd rfl (h4 _)
    · rename_i e; cases e
    · rename_i e; cases e
    · rfl
  refine ⟨.Simple k :: ks, ?_, ?_, ?_, by simp [Syn.isNil], ?_⟩
  · refine .cons ?_ ?_ g1
    · rw [hu]; rintro l' e; injection e with e _; subst e; exact absurd hm (by decide)
    · rcases h2 with h2 | h2
      · exact .pieceParam h2
      · exact .pieceBacktick h2
  · rw [merge_cons (.inl hk), List.map_cons, g2, ast_exp, ← h3]; rfl
  · intro v hv
    rcases List.mem_cons.1 hv with hv | hv
    · cases hv
    · exact g3 v hv
  · intro k' ks' e; cases e; exact hk

/-! ## Double quotes -/

/-- What ends the inside `d`: the closing quote before `rest`, or, for here-documents, the end of the body. -/
def Closes (d : Syn .dparts) (e : Option Token) (k rest : Str) : Prop :=
  (d.noQuote = true ∧ e = some .DoubleQuote ∧ k = '"' :: rest) ∨ (e = none ∧ k = [] ∧ rest = [])

theorem Closes.mono {d d' : Syn .dparts} {e : Option Token} {k rest : Str} (h : Closes d e k rest)
    (hd : d.noQuote = true → d'.noQuote = true) : Closes d' e k rest :=
  h.imp (fun ⟨a, b⟩ => ⟨hd a, b⟩) id

theorem Closes.ne {d : Syn .dparts} {e : Option Token} {k rest : Str} (h : Closes d e k rest) :
    e = some .DoubleQuote ∨ e = none := h.imp (·.2.1) (·.1)

variable (cc) in
/-- The text `t` is read as the inside `d` of double quotes, or the body of a here-document, before `k`. -/
def DW (d : Syn .dparts) (k t : Str) : Prop :=
  ∀ e rest, Closes d e k rest → ∃ qs, RD (.interpParts e) (lex cc t) qs (lex cc rest) ∧
    (gather [] qs).map stringCore.simpleOf = d.ast ∧
    List.IsChain (fun a b => ¬ MergeableSimple a b) (gather [] qs) ∧
    (d.startsText = false → (∀ s qs', qs ≠ .inl s :: qs') ∧ ∀ s ks, gather [] qs ≠ .Literal s :: ks)

theorem dW_nil {k : Str} : DW cc .dnil k k := by
  rintro e rest (⟨-, rfl, rfl⟩ | ⟨rfl, rfl, rfl⟩)
  · refine ⟨[], ?_, rfl, .nil, by simp [gather, textOf]⟩
    rw [lex_dquote]
    exact .interpEnd
  · refine ⟨[], ?_, rfl, .nil, by simp [gather, textOf]⟩
    rw [lex_empty]
    exact .interpEof

theorem dW_edge {d : Syn .dparts} {k t : Str} (hw : Writes cc false d k t) (hk : k = [] ∨ k.head? = some '"')
    (h : d.startsText = false) : t = [] ∨ ∃ c r, t = c :: r ∧ c ∈ dqChars := by
  cases hw with
  | dnil =>
    rcases hk with rfl | hk
    · exact .inl rfl
    · match k, hk with
      | _ :: _, hk => cases hk; exact .inr ⟨_, _, rfl, by decide⟩
  | dtext => cases h
  | desc => exact .inr ⟨_, _, rfl, by decide⟩
  | dexp he =>
    obtain ⟨c, x, rfl, hc⟩ := exp_head he
    exact .inr ⟨c, _, rfl, by rcases hc with rfl | rfl <;> decide⟩

theorem dq_breaker : ∀ c ∈ dqChars, c ∈ breakers := by decide

theorem dW_text (hs : cc.Sane) {s k t : Str} {d : Syn .dparts} (h : DqPlain s) (hd : d.startsText = false)
    (hw : Writes cc false d k t) (ih : DW cc d k t) : DW cc (.dtext s d) k (s ++ t) := by
  intro e rest he
  have hn : e = some .DoubleQuote → '"' ∉ s := by
    rintro rfl
    rcases he with ⟨hn, -⟩ | ⟨hn, -⟩
    · rw [noQuote_dtext, Bool.and_eq_true] at hn
      simpa using hn.1
    · cases hn
  obtain ⟨qs, h1, h2, h3, h4⟩ := ih e rest (he.mono fun h => by
    rw [noQuote_dtext, Bool.and_eq_true] at h; exact h.2)
  have hlex : lex cc (s ++ t) = lex cc s ++ lex cc t := by
    rcases dW_edge hw (he.elim (fun h => .inr (by rw [h.2.2]; rfl)) fun h => .inl h.2.1) hd with rfl | ⟨c, r, rfl, hm⟩
    · rw [lex_empty, List.append_nil, List.append_nil]
    · exact lex_breaker hs s c r (fun hm => h.2 _ hm (by decide)) (dq_breaker c hm)
  have hc := C01_concat_tokens cc s
  have hch : ∀ t ∈ lex cc s, e ≠ some t ∧ t ∉ [Token.Dollar, .Backtick, .Backslash] ∧ ∀ p, t ≠ .ParamPositional p := by
    intro t ht
    have hx : ∀ c ∈ t.asStr, c ∈ s := lex_chars ht
    refine ⟨?_, ?_, ?_⟩
    · rintro rfl
      rcases he.ne with e1 | e1
      · injection e1 with e1; subst e1
        exact hn rfl (hx _ (by decide))
      · cases e1
    · intro e
      simp only [List.mem_cons, List.not_mem_nil, or_false] at e
      rcases e with rfl | rfl | rfl
      · exact h.2 _ (hx '$' (by decide)) (by decide)
      · exact h.2 _ (hx '`' (by decide)) (by decide)
      · exact h.2 _ (hx '\\' (by decide)) (by decide)
    · rintro p rfl
      exact h.2 '$' (hx '$' (by cases p <;> decide)) (by decide)
  rw [hlex]
  generalize lex cc s = u at hc hch
  have hg : gather [] (u.map (fun t => .inl t.asStr) ++ qs) = .Literal s :: gather [] qs := by
    have : ∀ (u : List Token) (s0 : Str), gather s0 (u.map (fun t => (.inl t.asStr : Str ⊕ SimpleWordKind CK)) ++ qs) =
        textOf (s0 ++ concatTokens u) ++ gather [] qs := by
      intro u
      induction u with
      | nil =>
        intro s0
        rw [List.map_nil, List.nil_append, concatTokens, List.flatMap_nil, List.append_nil]
        match qs, (h4 hd).1 with
        | [], _ => simp [gather, textOf]
        | .inr w :: qs, _ => simp [gather, textOf]
        | .inl t :: qs, h => exact absurd rfl (h t qs)
      | cons t u ihu =>
        intro s0
        rw [List.map_cons, List.cons_append, gather, ihu, concatTokens_cons, List.append_assoc]
    rw [this, List.nil_append, hc, textOf, if_neg h.1]; rfl
  refine ⟨u.map (fun t => .inl t.asStr) ++ qs, ?_, ?_, ?_, by simp [Syn.startsText]⟩
  · clear hc hg
    induction u with
    | nil => exact h1
    | cons t u ihu =>
      obtain ⟨k1, k2, k3⟩ := hch t (by simp)
      exact .interpText k1 k2 k3 (ihu fun t h => hch t (by simp [h]))
  · rw [hg, List.map_cons, h2, ast_dtext]; rfl
  · rw [hg, List.isChain_cons]
    refine ⟨?_, h3⟩
    intro y hy hm
    have := (h4 hd).2
    generalize gather [] qs = z at hy this
    cases z with
    | nil => cases hy
    | cons x z =>
      cases hy
      unfold MergeableSimple at hm
      split at hm
      · exact this _ _ rfl
      · exact hm

theorem dW_esc {c : Char} {d : Syn .dparts} {k t : Str} (hc : c ∈ "$`\"\\\n".toList) (ih : DW cc d k t) :
    DW cc (.desc c d) k ('\\' :: c :: t) := by
  intro e rest he
  obtain ⟨qs, h1, h2, h3, h4⟩ := ih e rest (he.mono fun h => by rwa [noQuote_desc] at h)
  have h5 := lexSingle_spec cc c
  have h6 := single_asStr h5
  refine ⟨.inr (.Escaped (lexSingle cc c).asStr) :: qs, ?_, ?_, ?_, ?_⟩
  · rw [C03_escape_protects_one, lex_single]
    refine .interpEscaped (by rcases he.ne with rfl | rfl <;> simp) (.inl ?_) h1
    have key : ∀ c ∈ "$`\"\\\n".toList, ∀ t, Single cc c t → t ∈ quotable := by
      intro c hc t ht
      have : c = '$' ∨ c = '`' ∨ c = '"' ∨ c = '\\' ∨ c = '\n' := by
        clear ht h1 h2 h3 h4 h5 h6; revert c; decide
      rcases this with rfl | rfl | rfl | rfl | rfl
      · rw [single_unique ht (.op (t := .Dollar) (by decide))]; decide
      · rw [single_unique ht (.op (t := .Backtick) (by decide))]; decide
      · rw [single_unique ht (.op (t := .DoubleQuote) (by decide))]; decide
      · rw [single_unique ht .backslash]; decide
      · rw [single_unique ht (.op (t := .Newline) (by decide))]; decide
    exact key c hc _ h5
  · rw [gather, textOf, if_pos rfl, List.nil_append, List.map_cons, h2, ast_desc, h6]; rfl
  · rw [gather, textOf, if_pos rfl, List.nil_append]
    exact chain_cons_other (by simp) h3
  · intro _
    rw [gather, textOf, if_pos rfl, List.nil_append]
    simp

theorem dW_exp {e : Syn .exp} {d : Syn .dparts} {k t t' : Str} (hw : Writes cc false e t' t) (he : ExpW cc e t' t)
    (ih : DW cc d k t') : DW cc (.dexp e d) k t := by
  intro x rest hx
  obtain ⟨qs, h1, h2, h3, h4⟩ := ih x rest (hx.mono fun h => by rwa [noQuote_dexp] at h)
  obtain ⟨k, g2, g3, g4⟩ := he
  obtain ⟨u, l, hu, hm⟩ := exp_first hw
  have hne : ∀ k l', lex cc t = k :: l' → x ≠ some k := by
    rw [hu]; rintro k l' e; injection e with e _; subst e
    rcases hx.ne with rfl | rfl
    · rintro e; injection e with e; subst e; exact absurd hm (by decide)
    · simp
  refine ⟨.inr k :: qs, ?_, ?_, ?_, ?_⟩
  · rcases g2 with g2 | g2
    · exact .interpParam hne g2 h1
    · exact .interpBacktick hne g2 h1
  · rw [gather, textOf, if_pos rfl, List.nil_append, List.map_cons, h2, ast_dexp, g3]
  · rw [gather, textOf, if_pos rfl, List.nil_append]
    exact chain_cons_other g4 h3
  · intro _
    rw [gather, textOf, if_pos rfl, List.nil_append]
    exact ⟨by simp, fun s ks e => by cases e; exact g4 _ rfl⟩

theorem partsW_double {d : Syn .dparts} {r : Syn .parts} {rest t t' : Str} (hn : d.noQuote = true) (hd : DW cc d ('"' :: t') t) (hj : r.joint ≠ some .double)
    (ih : PartsW cc r rest t') : PartsW cc (.double d r) rest ('"' :: t) := by
  intro hr
  obtain ⟨qs, h1, h2, h3, -⟩ := hd _ t' (.inl ⟨hn, rfl, rfl⟩)
  obtain ⟨ks, g1, g2, g3, g4, g5⟩ := ih hr
  refine ⟨.DoubleQuoted (gather [] qs) :: ks, ?_, ?_, ?_, by simp [Syn.isNil], ?_⟩
  · rw [lex_dquote]
    exact .cons (by simp) (.doubleQuoted (.interp h1)) g1
  · rw [merge_cons, List.map_cons, g2, ast_double, ← h2]; rfl
    exact .inr fun k' ks' e => by rw [g5 k' ks' e]; exact hj
  · intro v hv
    rcases List.mem_cons.1 hv with hv | hv
    · cases hv
      exact merge_fixed (fun a b h => coalesceSimple_not h) _ h3
    · exact g3 v hv
  · intro k' ks' e; cases e; rfl

/-! ## First tokens -/

/-- The tokens that parts other than literals start with. -/
def partToks : List Token :=
  [.Backslash, .Star, .Question, .Tilde, .SquareOpen, .SquareClose, .Colon, .SingleQuote, .DoubleQuote] ++ expToks

theorem first_part {c : Char} (hc : c ∈ partChars) (x : Str) (hx : c = '\\' → x ≠ []) : ∃ t l, lex cc (c :: x) = t :: l ∧ t ∈ partToks := by
  by_cases hb : c = '\\'
  · subst hb
    cases x with
    | nil => exact absurd rfl (hx rfl)
    | cons d x =>
      rw [C03_escape_protects_one]
      exact ⟨_, _, rfl, by decide⟩
  · have hop := (partChars_not c hc).resolve_left hb
    have k2 : ∀ p ∈ operators, ∀ c ∈ partChars, p.1.head? = some c → p.2 ∈ partToks := by decide
    obtain ⟨p, hp, hh, l, e⟩ := first_op (cc := cc) hop x
    exact ⟨p.2, l, e, k2 p hp c hc hh⟩

/-- The first token of a word. -/
theorem partsW_first (hs : cc.Sane) {p : Syn .parts} {rest t : Str} (hw : Writes cc false p rest t) (hp : p.Ok cc true)
    (hr : NotPlain cc rest) (hn : p.isNil = false) :
    ∃ k l, lex cc t = k :: l ∧
      ((∃ s r, p = .lit s r ∧ LitTok k ∧ ∃ u, lex cc s = k :: u) ∨ (∀ s r, p ≠ .lit s r) ∧ k ∈ partToks) := by
  rcases parts_head hw with ⟨rfl, rfl⟩ | ⟨s, r, t', rfl, rfl, hw'⟩ | ⟨hj, -, c, x, rfl, hc, hx⟩
  · cases hn
  · rw [Ok_lit] at hp
    have hne : lex cc s ≠ [] := by
      intro e
      have := C01_concat_tokens cc s
      rw [e] at this
      exact hp.1.1 this.symm
    obtain ⟨k, u, hu⟩ := List.exists_cons_of_ne_nil hne
    refine ⟨k, u ++ lex cc t', ?_, .inl ⟨s, r, rfl, lit_tokens hs hp.1.2 k (by rw [hu]; simp), u, hu⟩⟩
    rw [lex_lit' hs hp.1.2 (notPlain_text hw' hp.2.1 hr), hu]; rfl
  · obtain ⟨k, l, h1, h2⟩ := first_part (cc := cc) hc x hx
    exact ⟨k, l, h1, .inr ⟨fun s r e => by subst e; exact hj rfl, h2⟩⟩

/-- The first token is `#` only if the first character is. -/
theorem firstW_not (hs : cc.Sane) {p : Syn .parts} {rest t : Str} (hw : Writes cc false p rest t) (hp : p.Ok cc true)
    (hr : NotPlain cc rest) (hn : p.isNil = false) {k : Token} {c : Char} (hk : k.asStr = [c]) (hm : k ∉ partToks)
    (hc : p.firstChar ≠ some c) (l : List Token) : lex cc t ≠ k :: l := by
  obtain ⟨t', l', h1, h2⟩ := partsW_first hs hw hp hr hn
  rw [h1]
  intro e
  injection e with e _
  subst e
  rcases h2 with ⟨s, r, rfl, -, u, hu⟩ | ⟨-, h2⟩
  · have := C01_concat_tokens cc s
    rw [hu, concatTokens_cons, hk] at this
    apply hc
    rw [← this]; rfl
  · exact hm h2

theorem expW_subst (hs : cc.Sane) {op : SubstOp} {p : Parameter Str} {w : Syn .parts} {rest t : Str} (hp : ValidParam cc p)
    (hw : w.Ok cc true) (hc : w.firstChar ≠ some '#') (hf : op.Fits p w) (hwr : Writes cc false w ('}' :: rest) t)
    (ih : PartsW cc w ('}' :: rest) t) :
    ExpW cc (.subst op p w) rest ('$' :: '{' :: (paramText p ++ (op.text ++ t))) := by
  have hnp : NotPlain cc ('}' :: rest) := notPlain_op (by rw [opStart_iff]; decide)
  obtain ⟨ks, h1, h2, h3, h4, -⟩ := ih hnp
  have hne : ∀ {k : Token} {c : Char}, k.asStr = [c] → k ≠ .CurlyClose → k ∉ partToks →
      w.firstChar ≠ some c → ∀ l', lex cc t ≠ k :: l' := by
    intro k c e hk hm hc
    by_cases hn : w.isNil = true
    · rcases parts_head hwr with ⟨rfl, rfl⟩ | ⟨_, _, _, rfl, -⟩ | ⟨-, h, -⟩
      · intro l' e
        rw [lex_close hs] at e
        injection e with e _
        exact hk e.symm
      · cases hn
      · rw [hn] at h; cases h
    · exact firstW_not hs hwr hw hnp (by simpa using hn) e hm hc
  obtain ⟨k, l, g1, g2, g3, g4⟩ := subst_core hs hp hf h1 h2 h3 h4 (hne (c := '#') rfl (by simp) (by decide) hc) (by
    rintro rfl
    exact hne (c := '%') rfl (by simp) (by decide) hf)
  have e : '$' :: '{' :: (paramText p ++ (op.text ++ t)) = "${".toList ++ paramText p ++ op.text ++ t := by simp
  rw [ExpW, e, g1]
  exact ⟨k, .inl g2, g3, g4⟩

/-! ## Whole words -/

theorem wordW_nb (hs : cc.Sane) {w : Syn .parts} {rest t : Str} (hw : Writes cc false w rest t) (hn : w.isNil = false)
    (ho : w.Ok cc true) : NB cc t := by
  rcases parts_head hw with ⟨rfl, rfl⟩ | ⟨s, r, t', rfl, rfl, -⟩ | ⟨hj, -, c, x, rfl, hc, -⟩
  · cases hn
  · rw [Ok_lit] at ho
    obtain ⟨c, s, rfl⟩ := List.exists_cons_of_ne_nil ho.1.1
    have h := litChar_not_meta hs (ho.1.2 c (by simp))
    exact noBlank_text (.inl h.2.1) (fun e => absurd e h.1)
  · by_cases hb : c = '\\'
    · subst hb
      refine noBlank_text (.inl ((hs.op _ (.inr rfl)).2 (by decide))) ?_
      rintro - r' e
      generalize ht : '\\' :: x = t at hw
      cases hw with
      | esc => cases ht; rw [Ok_esc] at ho; injection e with e _; exact ho.1 e
      | nil => cases hn
      | lit => exact absurd rfl hj
      | @glob g => cases g <;> cases ht
      | single => cases ht
      | double => cases ht
      | exp he => obtain ⟨c, y, rfl, hc⟩ := exp_head he; cases ht; rcases hc with hc | hc <;> cases hc
    · exact nb_op hs ((partChars_not c hc).resolve_left hb) _

/-- A word up to its end. -/
theorem wordW_raw (hs : cc.Sane) {w : Syn .parts} {R t : Str} (hwr : Writes cc false w R t) (hw : w.IsWord) (ho : w.Ok cc true) (ih : PartsW cc w R t)
    (hR : WordEnd cc R) :
    ∃ ks, ks ≠ [] ∧ RD (.rawWord none) (lex cc t) (some (wordWith ks)) (lex cc R) ∧
      stringCore.word (wordWith ks) = wordAst w.ast ∧ (merge coalesceWord ks).map stringCore.partOf = w.ast := by
  obtain ⟨ks, h1, h2, h3, h4, -⟩ := ih hR.notPlain
  have hks : ks ≠ [] := fun e => by have := h4.1 e; rw [hw.1] at this; cases this
  refine ⟨ks, hks, ?_, by rw [word_of hks h3, h2], h2⟩
  have := Reads.someWord (B := DefaultBuilder) (d := none) (.refl (wordW_nb hs hwr hw.1 ho))
    (firstW_not hs hwr ho hR.notPlain hw.1 (k := .Pound) rfl (by decide) hw.2) (h1.pieces (hR.ends hs))
  rwa [wordOf_eq hks] at this

theorem wordW_read (hs : cc.Sane) {w : Syn .parts} {R t : Str} (hwr : Writes cc false w R t) (hw : w.IsWord) (ho : w.Ok cc true) (ih : PartsW cc w R t)
    (hR : WordEnd cc R) {l : List Token} (hl : Skip (lex cc R) l) :
    RD .word (lex cc t) (some (wordAst w.ast)) l := by
  obtain ⟨ks, -, h1, h2, -⟩ := wordW_raw hs hwr hw ho ih hR
  exact .word (.wordPSome h1 (calls_word h2)) hl

/-- A word that could be a descriptor. -/
theorem number_word {ks : List (WordKind CK)} {w : Syn .parts} (h : (merge coalesceWord ks).map stringCore.partOf = w.ast) {n : Nat}
    (hf : FdWord (wordWith ks) n) (hks : ks ≠ []) (ho : w.Ok cc true) : w.isNumber = true := by
  obtain ⟨s, h1, h2, -, h3⟩ := hf
  have key : ∃ s', merge coalesceWord ks = [.Simple (.Literal s')] ∧ s' = s := by
    generalize hk : wordWith ks = k at h1
    have hlits : ∀ (ss : List Str) (s : Str), mergeFrom coalesceWord (.Simple (.Literal s) : WordKind CK) (ss.map fun s => .Simple (.Literal s)) =
        [.Simple (.Literal (s ++ ss.flatten))] := by
      intro ss
      induction ss with
      | nil => intro s; simp [mergeFrom]
      | cons x ss ih =>
        intro s
        rw [List.map_cons, mergeFrom]
        simp only [coalesceWord, coalesceSimple]
        rw [ih, List.flatten_cons, List.append_assoc]
    cases h1 with
    | single =>
      match ks, hk with
      | [k], hk => cases hk; exact ⟨_, rfl, rfl⟩
    | @concat ss =>
      match ks, hk with
      | a :: b :: ks, hk =>
        have e : a :: b :: ks = ss.map fun s => .Simple (.Literal s) := by injection hk
        match ss, e with
        | x :: ss, e =>
          rw [e, List.map_cons, merge, hlits]
          exact ⟨_, rfl, by simp⟩
  obtain ⟨s', h4, rfl⟩ := key
  rw [h4] at h
  have hdig : ∀ {x : Str} {ds : List Nat}, Digits 10 x ds → ∀ c ∈ x, isDigit c = true := by
    intro x ds hd c hc
    obtain ⟨d, hd'⟩ : ∃ d, (c, d) ∈ x.zip ds := by
      obtain ⟨i, hi, rfl⟩ := List.getElem_of_mem hc
      refine ⟨ds[i]'(by rw [← hd.1]; exact hi), ?_⟩
      rw [List.mem_iff_getElem]
      exact ⟨i, by simp [← hd.1, hi], by simp⟩
    have := hd.2 _ hd'
    have k : ∀ p ∈ digitTable, p.2 < 10 → isDigit p.1 = true := by decide
    exact k _ this.1 this.2
  cases w with
  | lit x r =>
    rw [ast_lit] at h
    injection h with e1 e2
    have ex : s' = x := by
      have : (.Simple (.Literal s') : Word Str SSimple) = .Simple (.Literal x) := e1
      injection this with this; injection this
    have : r = .nil := by cases r <;> first | rfl | cases e2
    subst this ex
    simp only [Syn.isNumber, List.all_eq_true, Bool.or_eq_true]
    intro c hc
    generalize hz : (n : Int) = z at h2
    cases h2 with
    | plain _ hd => exact .inl (hdig hd c hc)
    | plus _ hd =>
      rcases List.mem_cons.1 hc with rfl | hc
      · exact .inr rfl
      · exact .inl (hdig hd c hc)
    | minus _ hd => exact absurd rfl h3
  | nil => cases h
  | esc c r => cases h
  | glob g r => cases g <;> cases h
  | single s r => cases h
  | double d r => cases h
  | exp e r => rw [ast_exp] at h; injection h with e1 _; cases e <;> cases e1

/-- The first character of a word. -/
theorem word_char (hs : cc.Sane) {w : Syn .parts} {rest t : Str} (hw : Writes cc false w rest t) (hn : w.isNil = false) (ho : w.Ok cc true) :
    ∃ c x, t = c :: x ∧ c ∉ "\n;&|<>()".toList ∧ ¬ Blank cc c := by
  rcases parts_head hw with ⟨rfl, rfl⟩ | ⟨s, r, t', rfl, rfl, -⟩ | ⟨hj, -, c, x, rfl, hc, -⟩
  · cases hn
  · rw [Ok_lit] at ho
    obtain ⟨c, s, rfl⟩ := List.exists_cons_of_ne_nil ho.1.1
    refine ⟨c, _, rfl, ?_, ?_⟩
    · rcases ho.1.2 c (by simp) with h | h
      · exact fun e => h.2.1 (delim_op e)
      · clear ho hw hn; revert c; decide
    · rintro ⟨h, -⟩
      have := (litChar_not_meta hs (ho.1.2 c (by simp))).2.1
      rw [h] at this; cases this
  · refine ⟨c, x, rfl, ?_, ?_⟩
    · clear hw hj; revert c; decide
    · intro h
      have := blank_not_op hs h
      rcases partChars_not c hc with rfl | h'
      · exact this.2 rfl
      · exact this.1 h'

/-- A word that is literal text as a whole: when a token ends it. -/
theorem litW_only (hs : cc.Sane) {s : Str} {r : Syn .parts} {R tx : Str} (hw : Writes cc false (.lit s r) R tx) (ho : (Syn.lit s r).Ok cc true)
    (hR : WordEnd cc R) {t : Token} {l : List Token} (h : lex cc tx = t :: l) :
    ∃ u, lex cc s = t :: u ∧ ((u = [] ∧ r.isNil = true ∧ l = lex cc R) ∨
      ∃ t' l', l = t' :: l' ∧ t'.isWordDelimiter = false ∧ (t' = .Equals → '=' ∈ s)) := by
  rw [Ok_lit] at ho
  obtain ⟨t', rfl, hw'⟩ : ∃ t', tx = s ++ t' ∧ Writes cc false r R t' := by
    cases hw with | lit h' => exact ⟨_, rfl, h'⟩
  rw [lex_lit' hs ho.1.2 (notPlain_text hw' ho.2.1 hR.notPlain)] at h
  have hne : lex cc s ≠ [] := by
    intro e
    have := C01_concat_tokens cc s
    rw [e] at this
    exact ho.1.1 this.symm
  have ht := lit_tokens hs ho.1.2
  have hcat := C01_concat_tokens cc s
  obtain ⟨t0, u, hu⟩ := List.exists_cons_of_ne_nil hne
  rw [hu] at h ht hcat
  rw [hu]
  injection h with h1 h2
  subst h1
  refine ⟨u, rfl, ?_⟩
  cases u with
  | nil =>
    replace h2 : lex cc t' = l := h2
    by_cases hn : r.isNil = true
    · refine .inl ⟨rfl, hn, ?_⟩
      have : r = .nil := by cases r <;> first | rfl | cases hn
      subst this
      cases hw'
      exact h2.symm
    · have hn : r.isNil = false := by simpa using hn
      obtain ⟨k, l', h3, h4⟩ := partsW_first hs hw' ho.2.2 hR.notPlain hn
      rcases h4 with ⟨s', r', rfl, -⟩ | ⟨-, h4⟩
      · exact absurd rfl ho.2.1
      · refine .inr ⟨k, l', by rw [← h2, h3], ?_⟩
        have key : ∀ t ∈ partToks, t.isWordDelimiter = false ∧ t ≠ .Equals := by decide
        exact ⟨(key _ h4).1, fun e => absurd e (key _ h4).2⟩
  | cons k u =>
    refine .inr ⟨k, u ++ lex cc t', by rw [← h2]; rfl, (ht k (by simp)).ne.2.1, ?_⟩
    rintro rfl
    rw [← hcat, concatTokens_cons, concatTokens_cons]
    simp [Token.asStr]

/-- The start of the command word. -/
theorem wordW_start (hs : cc.Sane) {w : Syn .parts} {R tx : Str} (hwr : Writes cc false w R tx) (hw : w.IsWord) (ho : w.Ok cc true)
    (hc : w.IsCommandWord) (hR : WordEnd cc R) (hp : ∀ l, Skip (lex cc R) l → ∀ l', l ≠ .ParenOpen :: l') :
    SimpleStart (lex cc tx) ∧ ¬ AssignStart (lex cc tx) := by
  have hnb := wordW_nb hs hwr hw.1 ho
  obtain ⟨t, l, h1, h2⟩ := partsW_first hs hwr ho hR.notPlain hw.1
  have hpound := firstW_not hs hwr ho hR.notPlain hw.1 (k := .Pound) rfl (by decide) hw.2 l
  have hends := hR.ends hs
  rw [NB, h1] at hnb
  rcases h2 with ⟨s, r, rfl, ht, -⟩ | ⟨hnl, ht⟩
  · obtain ⟨u, hu, h3⟩ := litW_only hs hwr ho hR h1
    have hcat := C01_concat_tokens cc s
    rw [hu, concatTokens_cons] at hcat
    obtain ⟨hc1, hc2, hc3⟩ := hc
    rw [h1] at hpound ⊢
    refine ⟨⟨?_, ⟨t, l, rfl, ?_⟩, ?_, ?_, hnb⟩, ?_⟩
    · rintro x hx r' ⟨he, hend⟩
      rcases h3 with ⟨rfl, hn, rfl⟩ | ⟨t', l', rfl, ht', -⟩
      · refine hc3 hn ?_
        rw [← hcat]
        rcases he with he | he <;> (cases he; simpa [Token.asStr, concatTokens] using hx)
      · have : r' = t' :: l' := by rcases he with he | he <;> (cases he; rfl)
        have := hend _ _ this
        rw [ht'] at this; cases this
    · have h4 := ht.ne
      have hb : t ≠ .Bang := by
        rintro rfl
        rw [← hcat] at hc2
        exact hc2 rfl
      have hpo : t ≠ .Pound := by rintro rfl; exact hpound rfl
      simp only [List.mem_cons, List.not_mem_nil, or_false, not_or]
      refine ⟨?_, hpo, ?_, h4.1, ?_, ?_, h4.2.2.2.1, hb⟩ <;> (rintro rfl; exact absurd h4.2.1 (by decide))
    · rintro x r' e
      injection e with e1 e2
      rcases h3 with ⟨rfl, hn, rfl⟩ | ⟨t', l', rfl, ht', -⟩
      · exact hp _ (.refl (by rw [e2]; simp [Gram.NoBlank])) _ e2
      · cases e2; cases ht'
    · rintro x w' r' e
      injection e with e1 e2
      rcases h3 with ⟨rfl, hn, rfl⟩ | ⟨t', l', rfl, ht', -⟩
      · rw [e2] at hp
        exact hp _ (skip_blank (.refl (by simp [Gram.NoBlank]))) _ rfl
      · cases e2; cases ht'
    · rintro ⟨x, r', e⟩
      injection e with e1 e2
      rcases h3 with ⟨rfl, hn, rfl⟩ | ⟨t', l', rfl, -, ht'⟩
      · have := hends _ _ e2; cases this
      · cases e2; exact hc1 (ht' rfl)
  · have key : ∀ t ∈ partToks, t ∉ [Token.Newline, .Pound, .ParenClose, .CurlyClose, .DSemi, .ParenOpen, .CurlyOpen, .Bang] := by decide
    have hname : ∀ x, t ≠ .Name x ∧ t ≠ .Literal x := by
      intro x; constructor <;> (rintro rfl; simp [partToks, expToks] at ht)
    rw [h1]
    refine ⟨⟨?_, ⟨t, l, rfl, key t ht⟩, ?_, ?_, hnb⟩, ?_⟩
    · rintro x - r ⟨e | e, -⟩ <;> (injection e with e _)
      · exact (hname _).1 e
      · exact (hname _).2 e
    · rintro x r e; injection e with e _; exact (hname _).1 e
    · rintro x w r e; injection e with e _; exact (hname _).1 e
    · rintro ⟨x, r, e⟩; injection e with e _; exact (hname _).1 e

end
end Conch
