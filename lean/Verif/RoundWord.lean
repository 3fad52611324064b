import Verif.RoundArith
import Verif.PropsDquote
import Verif.PropsCompress
/-!
# Words read back (C39)
-/
namespace Conch
open Spec Gram

/-- Reading with the default builder. -/
abbrev RD (n : NT) (l : List Token) (a : n.Res DefaultBuilder) (r : List Token) : Prop :=
  Reads (B := DefaultBuilder) n () l a r ()

abbrev CK := TopLevelCommand Str

/-! ## Merging -/

/-- Parts of words that may join. -/
def jointOf {C : Type} : WordKind C → Option Joint
  | .Simple (.Literal _) => some .lit
  | .SingleQuoted _ => some .single
  | .DoubleQuoted _ => some .double
  | _ => none

theorem mergeable_joint {C : Type} {a b : WordKind C} (h : Mergeable a b) :
    jointOf a ≠ none ∧ jointOf a = jointOf b := by
  unfold Mergeable at h
  split at h <;> simp_all [jointOf]

theorem merge_cons {C : Type} {k : WordKind C} {ks : List (WordKind C)}
    (h : jointOf k = none ∨ ∀ k' ks', ks = k' :: ks' → jointOf k' ≠ jointOf k) :
    merge coalesceWord (k :: ks) = k :: merge coalesceWord ks := by
  cases ks with
  | nil => rfl
  | cons k' ks =>
    rw [merge, mergeFrom, coalesceWord_not]
    · rfl
    · intro hm
      have := mergeable_joint hm
      rcases h with h | h
      · exact this.1 h
      · exact h k' ks rfl this.2.symm

theorem mergeFrom_lits {C : Type} (u : List Token) (ks : List (WordKind C))
    (h : ∀ k' ks', ks = k' :: ks' → jointOf k' ≠ some .lit) : ∀ s,
    mergeFrom coalesceWord (.Simple (.Literal s)) (u.map (fun t => .Simple (.Literal t.asStr)) ++ ks) =
      .Simple (.Literal (s ++ concatTokens u)) :: merge coalesceWord ks := by
  induction u with
  | nil =>
    intro s
    rw [concatTokens, List.flatMap_nil, List.append_nil, ← merge_cons (.inr h)]; rfl
  | cons t u ih =>
    intro s
    rw [List.map_cons, List.cons_append, mergeFrom]
    simp only [coalesceWord, coalesceSimple]
    rw [ih, concatTokens_cons, List.append_assoc]

theorem merge_lits {C : Type} {u : List Token} (hu : u ≠ []) (ks : List (WordKind C))
    (h : ∀ k' ks', ks = k' :: ks' → jointOf k' ≠ some .lit) :
    merge coalesceWord (u.map (fun t => .Simple (.Literal t.asStr)) ++ ks) =
      .Simple (.Literal (concatTokens u)) :: merge coalesceWord ks := by
  obtain ⟨t, u, rfl⟩ := List.exists_cons_of_ne_nil hu
  rw [List.map_cons, List.cons_append, merge, mergeFrom_lits u ks h, concatTokens_cons]

mutual
theorem mapArith_id : ∀ a : DefaultArithmetic, mapArith id a = a
  | .Var _ | .Literal _ | .PostIncr _ | .PostDecr _ | .PreIncr _ | .PreDecr _ => rfl
  | .UnaryPlus a | .UnaryMinus a | .LogicalNot a | .BitwiseNot a | .Assign _ a => by
    simp only [mapArith, mapArith_id a, id]
  | .Pow a b | .Mult a b | .Div a b | .Modulo a b | .Add a b | .Sub a b | .ShiftLeft a b
  | .ShiftRight a b | .Less a b | .LessEq a b | .Great a b | .GreatEq a b | .Eq a b | .NotEq a b
  | .BitwiseAnd a b | .BitwiseXor a b | .BitwiseOr a b | .LogicalAnd a b | .LogicalOr a b => by
    simp only [mapArith, mapArith_id a, mapArith_id b]
  | .Ternary a b c => by simp only [mapArith, mapArith_id a, mapArith_id b, mapArith_id c]
  | .Sequence as => by simp only [mapArith, mapAriths_id as]
theorem mapAriths_id : ∀ as : List DefaultArithmetic, mapAriths id as = as
  | [] => rfl
  | a :: as => by simp only [mapAriths, mapArith_id a, mapAriths_id as]
end

theorem mapParam_id (p : Parameter Str) : mapParam id p = p := by cases p <;> rfl

/-- The word for several parts. -/
theorem word_of {ks : List (WordKind CK)} (hne : ks ≠ [])
    (hd : ∀ v, .DoubleQuoted v ∈ ks → merge coalesceSimple v = v) :
    stringCore.word (wordWith ks) = wordAst ((merge coalesceWord ks).map stringCore.partOf) := by
  rw [C32_default_builder_compresses]
  match ks, hne with
  | [k], _ =>
    have : compress (wordWith [k]) = .Single k := by
      match k with
      | .Simple s => rfl
      | .SingleQuoted s => rfl
      | .DoubleQuoted v =>
        simp only [wordWith, compress, Coalesce.collect_eq]
        rw [hd v (by simp)]
    rw [this]; rfl
  | a :: b :: ks, _ =>
    simp only [wordWith, compress, Coalesce.collect_eq]
    generalize merge coalesceWord (a :: b :: ks) = z
    match z with
    | [] => rfl
    | [x] => rfl
    | x :: y :: z => rfl

theorem opt_of {ks : List (WordKind CK)} (hd : ∀ v, .DoubleQuoted v ∈ ks → merge coalesceSimple v = v) :
    (wordOf ks).map stringCore.word = optAst ((merge coalesceWord ks).map stringCore.partOf) := by
  by_cases h : ks = []
  · subst h; rfl
  · rw [wordOf_eq h, Option.map_some, word_of h hd]
    obtain ⟨k, ks, rfl⟩ := List.exists_cons_of_ne_nil h
    have : merge coalesceWord (k :: ks) ≠ [] := by
      rw [merge]
      clear hd h
      induction ks generalizing k with
      | nil => simp [mergeFrom]
      | cons y ys ih => rw [mergeFrom]; split <;> simp_all
    generalize merge coalesceWord (k :: ks) = z at this
    match z, this with
    | x :: z, _ => rfl

/-! ## Runs of parts -/

/-- Parts of words, none of them starting with `}`. -/
inductive PieceRun : List Token → List (WordKind CK) → List Token → Prop
  | nil {l} : PieceRun l [] l
  | cons {l k l' ks r} : (∀ l', l ≠ .CurlyClose :: l') → RD .piece l k l' → PieceRun l' ks r → PieceRun l (k :: ks) r

theorem PieceRun.pieces {l ks r} (h : PieceRun l ks r) (he : Gram.EndsWord r) : RD (.pieces none) l ks r := by
  induction h with
  | nil => exact .endWord he
  | cons _ h _ ih => exact .consPiece (by simp) h (ih he)

theorem PieceRun.subst {l ks r} (h : PieceRun l ks (.CurlyClose :: r)) : ∀ mid, (mid = false → ∀ l', l ≠ .Pound :: l') →
    RD (.substPieces mid) l ks r := by
  generalize hr : Token.CurlyClose :: r = r0 at h
  induction h with
  | nil => subst hr; intro mid _; exact .substEnd
  | cons h1 h2 _ ih => intro mid hp; exact .substPiece h1 hp h2 (ih hr true (by simp))

theorem PieceRun.append {l ks l' ks' r} (h : PieceRun l ks l') (h' : PieceRun l' ks' r) : PieceRun l (ks ++ ks') r := by
  induction h with
  | nil => exact h'
  | cons h1 h2 _ ih => exact .cons h1 h2 (ih h')

/-! ## Literal text -/

section
variable {cc : CharClass}

/-- The tokens of literal text. -/
def LitTok (t : Token) : Prop :=
  (∃ x, t = .Name x ∨ t = .Literal x) ∨
    t ∈ [Token.Bang, .Pound, .Percent, .Dash, .Equals, .Plus, .At, .Caret, .Slash, .Comma]

theorem LitTok.plain {t : Token} (h : LitTok t) : PlainToken t := by
  rcases h with h | h
  · exact .inl h
  · refine .inr ?_
    revert t; decide

theorem LitTok.ne {t : Token} (h : LitTok t) : t ≠ .CurlyClose ∧ t.isWordDelimiter = false ∧ t ≠ .Backslash ∧
    t ≠ .CurlyOpen ∧ ∀ w, t ≠ .Whitespace w := by
  rcases h with ⟨x, rfl | rfl⟩ | h
  · simp [Token.isWordDelimiter]
  · simp [Token.isWordDelimiter]
  · simp only [List.mem_cons, List.not_mem_nil, or_false] at h
    rcases h with rfl | rfl | rfl | rfl | rfl | rfl | rfl | rfl | rfl | rfl <;> simp [Token.isWordDelimiter]

theorem litChar_not_meta (hs : cc.Sane) {c : Char} (h : Plain cc c ∨ c ∈ "!#%-=+@^/,".toList) :
    c ≠ '\\' ∧ cc.whitespace c = false ∧ (opStart c → c ∈ "!#%-=+@^/,".toList) := by
  rcases h with h | h
  · exact ⟨h.1, h.2.2, fun h' => absurd h' h.2.1⟩
  · have : ∀ c ∈ "!#%-=+@^/,".toList, c ≠ '\\' ∧ c ≠ '\n' ∧ ∃ p ∈ operators, p.1.head? = some c := by decide
    obtain ⟨h1, h2, h3⟩ := this c h
    exact ⟨h1, (hs.op c (.inl h3)).2 h2, fun _ => h⟩

theorem lit_tokens (hs : cc.Sane) {s : Str} (h : ∀ c ∈ s, Plain cc c ∨ c ∈ "!#%-=+@^/,".toList) :
    ∀ t ∈ lex cc s, LitTok t := by
  have hl := lex_lexes cc s
  generalize lex cc s = ts at hl
  induction hl with
  | nil => simp
  | trailingBackslash => exact absurd rfl (litChar_not_meta hs (h '\\' (by simp))).1
  | escape _ _ _ => exact absurd rfl (litChar_not_meta hs (h '\\' (by simp))).1
  | op ho _ ih =>
    rename_i o t s ts _
    intro t' ht'
    rcases List.mem_cons.1 ht' with rfl | ht'
    · obtain ⟨h1, h2, h3⟩ := ho
      have key : ∀ p ∈ operators, (∃ c, p.1.head? = some c ∧ c ∈ "!#%-=+@^/,".toList) →
          p.2 ∈ [Token.Bang, .Pound, .Percent, .Dash, .Equals, .Plus, .At, .Caret, .Slash, .Comma] := by
        intro p hp ⟨c, hc, hm⟩
        have : ∀ p ∈ operators, (∀ c ∈ p.1.head?, c ∈ "!#%-=+@^/,".toList) →
          p.2 ∈ [Token.Bang, .Pound, .Percent, .Dash, .Equals, .Plus, .At, .Caret, .Slash, .Comma] := by decide
        exact this p hp (by intro c' hc'; rw [hc] at hc'; cases hc'; exact hm)
      have hne : o ≠ [] := by
        have : ∀ p ∈ operators, p.1 ≠ [] := by decide
        exact this _ h1
      obtain ⟨c, o', rfl⟩ := List.exists_cons_of_ne_nil hne
      exact .inr (key _ h1 ⟨c, rfl, (litChar_not_meta hs (h c (by simp))).2.2 ⟨_, h1, rfl⟩⟩)
    · exact ih (fun c hc => h c (by simp [hc])) t' ht'
  | blank _ _ g3 _ _ ih =>
    rw [(litChar_not_meta hs (h _ (by simp))).2.1] at g3; cases g3
  | name _ _ _ _ ih =>
    intro t' ht'
    rcases List.mem_cons.1 ht' with rfl | ht'
    · exact .inl ⟨_, .inl rfl⟩
    · exact ih (fun c hc => h c (by simp [hc])) t' ht'
  | literal _ _ _ _ ih =>
    intro t' ht'
    rcases List.mem_cons.1 ht' with rfl | ht'
    · exact .inl ⟨_, .inr rfl⟩
    · exact ih (fun c hc => h c (by simp [hc])) t' ht'

/-- What may follow literal text. -/
def Edge (s : Str) : Prop := ∃ c r, s = c :: r ∧ c ∈ "\\'\"$*?~[]: }".toList

theorem lex_lit (hs : cc.Sane) {s rest : Str} (h : LitText cc s) (hr : Edge rest) :
    lex cc (s ++ rest) = lex cc s ++ lex cc rest := by
  obtain ⟨c, r, rfl, hc⟩ := hr
  have key : ∀ c ∈ "\\'\"$*?~[]: }".toList, (c = '\\' ∨ c = ' ' ∨ ∃ p ∈ operators, p.1.head? = some c) ∧
      c ∉ ";&|<->0123456789".toList := by decide
  obtain ⟨k1, k2⟩ := key c hc
  refine lex_break s c r (fun hm => (litChar_not_meta hs (h.2 _ hm)).1 rfl) (fun hp => ?_) k2
    (fun _ d hd => (litChar_not_meta hs (h.2 d hd)).2.1)
  rcases k1 with rfl | rfl | k
  · exact hp.1 rfl
  · have := hp.2.2; rw [hs.space] at this; cases this
  · exact hp.2.1 k

/-- Text starting with something else than a blank. -/
theorem noBlank_text {c : Char} {r : Str} (h : cc.whitespace c = false ∨ c = '\n')
    (hb : c = '\\' → ∀ r', r ≠ '\n' :: r') : Gram.NoBlank (lex cc (c :: r)) := by
  have h1 := C01_concat_tokens cc (c :: r)
  have h2 := C02_token_shapes cc (c :: r)
  generalize lex cc (c :: r) = ts at h1 h2
  constructor
  · rintro w r' rfl
    have := h2 _ (List.mem_cons_self ..)
    obtain ⟨hne, hw⟩ := this
    rw [concatTokens_cons] at h1
    obtain ⟨d, w, rfl⟩ := List.exists_cons_of_ne_nil hne
    cases h1
    have := hw c (by simp)
    rcases h with h | rfl
    · rw [this.1] at h; cases h
    · exact this.2 rfl
  · rintro r' rfl
    rw [concatTokens_cons, concatTokens_cons] at h1
    cases h1
    exact hb rfl _ rfl

/-! ## Expansions -/

variable (cc) in
/-- Claim about expansions. -/
def ExpClaim (e : Syn .exp) : Prop :=
  ∀ rest, ∃ k l, lex cc (e.text ++ rest) = .Dollar :: l ∧ RD .param (.Dollar :: l) k (lex cc rest) ∧
    stringCore.simpleOf k = e.ast ∧ ∀ s, k ≠ .Literal s

theorem lex_close (hs : cc.Sane) (rest : Str) : lex cc ('}' :: rest) = .CurlyClose :: lex cc rest :=
  lex_end hs .CurlyClose rest (by decide) (by decide)

theorem lex_brace (hs : cc.Sane) (rest : Str) : lex cc ('$' :: '{' :: rest) = .Dollar :: .CurlyOpen :: lex cc rest := by
  rw [lex_dollar hs (by intro c hc; cases hc; decide)]
  exact congrArg _ (lex_end hs .CurlyOpen rest (by decide) (by decide))

/-- A parameter between braces. -/
theorem param_tok (hs : cc.Sane) (p : Parameter Str) (hp : ValidParam cc p) (c : Char) (rest : Str)
    (hc : c ∈ "}-=?+:%#".toList) :
    ∃ t, lex cc (paramText p ++ c :: rest) = t :: lex cc (c :: rest) ∧ ParamIn t p ∧
      (t ∉ [Token.Percent, .Pound, .Colon, .Dash, .Equals, .Question, .Plus, .CurlyClose] ∨
        (t, p) ∈ [(Token.Pound, Parameter.Pound), (.Question, .Question), (.Dash, .Dash)]) := by
  have hop : opStart c := by revert c; unfold opStart; decide
  cases p with
  | At => exact ⟨.At, lex_end hs .At _ (by decide) (by decide), .name (.special (by simp [specialParams])), by simp⟩
  | Star => exact ⟨.Star, lex_end hs .Star _ (by decide) (by decide), .name (.special (by simp [specialParams])), by simp⟩
  | Pound => exact ⟨.Pound, lex_end hs .Pound _ (by decide) (by decide), .name (.special (by simp [specialParams])), by simp⟩
  | Question => exact ⟨.Question, lex_end hs .Question _ (by decide) (by decide), .name (.special (by simp [specialParams])), by simp⟩
  | Dash => exact ⟨.Dash, lex_end hs .Dash _ (by decide) (by decide), .name (.special (by simp [specialParams])), by simp⟩
  | Dollar =>
    refine ⟨.Dollar, lex_dollar hs (s := c :: rest) ?_, .name (.special (by simp [specialParams])), by simp⟩
    intro d hd; cases hd; clear hop; revert c; decide
  | Bang => exact ⟨.Bang, lex_end hs .Bang _ (by decide) (by decide), .name (.special (by simp [specialParams])), by simp⟩
  | Var v => exact ⟨.Name v, lex_name hs hp c rest (.inl hop), .name .var, by simp⟩
  | Positional n =>
    refine ⟨.Literal (natDigits n), lex_digits cc hs n (s := c :: rest) (by intro d hd; cases hd; exact hop), ?_, by simp⟩
    obtain ⟨ds, hd, he⟩ := digits_natDigits n
    have hsg : Signed 10 (natDigits n) (n : Int) := by
      have := Signed.plain (base := 10) (s := natDigits n) Nat.toDigits_ne_nil hd
      rwa [he] at this
    have := ParamIn.number hsg (by have : n < 2 ^ 32 := hp; omega) (by
      intro hh
      have : '-' ∈ natDigits n := by
        obtain ⟨d, r, hr⟩ := List.exists_cons_of_ne_nil (l := natDigits n) Nat.toDigits_ne_nil
        rw [hr] at hh ⊢; cases hh; simp
      have := natDigits_isDigit this
      revert this; decide)
    exact this

theorem exp_param (hs : cc.Sane) (p : Parameter Str) (hp : ValidParam cc p) : ExpClaim cc (.param p) := by
  intro rest
  obtain ⟨t, h1, h2, -⟩ := param_tok hs p hp '}' rest (by decide)
  refine ⟨.Param p, .CurlyOpen :: t :: .CurlyClose :: lex cc rest, ?_, .braced h2 .curlyEnd, ?_, by simp⟩
  · simp only [text_param]
    have : "${".toList ++ paramText p ++ ['}'] ++ rest = '$' :: '{' :: (paramText p ++ '}' :: rest) := by simp
    rw [this, lex_brace hs, h1, lex_close hs]
  · simp only [Core.simpleOf, ast_param]; rw [mapParam_id]

theorem exp_len (hs : cc.Sane) (p : Parameter Str) (hp : ValidParam cc p) : ExpClaim cc (.len p) := by
  intro rest
  obtain ⟨t, h1, h2, h3⟩ := param_tok hs p hp '}' rest (by decide)
  refine ⟨.Subst (.Len p), .CurlyOpen :: .Pound :: t :: .CurlyClose :: lex cc rest, ?_,
    .braced (.name (.special (q := .Pound) (by simp [specialParams]))) ?_, ?_, by simp⟩
  · simp only [text_len]
    have : "${#".toList ++ paramText p ++ ['}'] ++ rest = '$' :: '{' :: '#' :: (paramText p ++ '}' :: rest) := by simp
    rw [this, lex_brace hs]
    have : lex cc ('#' :: (paramText p ++ '}' :: rest)) = .Pound :: lex cc (paramText p ++ '}' :: rest) :=
      lex_end hs .Pound _ (by decide) (by decide)
    rw [this, h1, lex_close hs]
  · rcases h3 with h3 | h3
    · exact .curlyLen h2 h3
    · exact .curlyLenSpecial h3
  · simp only [Core.simpleOf, Core.substOf, ast_len]; rw [mapParam_id]

theorem exp_arith (hs : cc.Sane) (a : DefaultArithmetic) (ha : ArithOk cc a) : ExpClaim cc (.arith a) := by
  intro rest
  obtain ⟨u, u1, u2, u3⟩ := arith_reads hs ha
  have hb1 : ∀ r, Gram.NoBlank (Token.ParenClose :: r) := fun r => by simp [Gram.NoBlank]
  have hc : ∀ r, lex cc (')' :: r) = .ParenClose :: lex cc r := fun r => lex_end hs .ParenClose r (by decide) (by decide)
  have ho : ∀ r, lex cc ('(' :: r) = .ParenOpen :: lex cc r := fun r => lex_end hs .ParenOpen r (by decide) (by decide)
  refine ⟨.Subst (.Arith (some a)), .ParenOpen :: .ParenOpen :: wsp :: (u ++ wsp :: .ParenClose :: .ParenClose :: lex cc rest), ?_, ?_, ?_, by simp⟩
  · simp only [text_arith]
    have : "$(( ".toList ++ arithText a ++ " ))".toList ++ rest =
      '$' :: '(' :: '(' :: ' ' :: (arithText a ++ ' ' :: ')' :: ')' :: rest) := by simp
    rw [this, lex_dollar hs (by intro c hc; cases hc; decide), ho, ho, lex_space hs (by rw [u3.2]; exact u3.1 _), u3.2,
      lex_space hs (by rw [hc]; exact hb1 _), hc, hc]
  · refine .arithmetic (l' := u ++ wsp :: .ParenClose :: .ParenClose :: lex cc rest) (u := u)
      (l1 := wsp :: .ParenClose :: .ParenClose :: lex cc rest) (l2 := .ParenClose :: lex cc rest)
      (skip_blank (Skip.refl (u3.1 _))) ?_ rfl (primary_up u2 _) (skip_blank (Skip.refl (hb1 _))) (Skip.refl (hb1 _))
    obtain ⟨t, u, rfl, ⟨x, rfl⟩ | ⟨x, rfl⟩ | rfl⟩ := u1 <;> simp
  · simp only [Core.simpleOf, Core.substOf, ast_arith, Option.map_some]; rw [mapArith_id]

/-! ## Parts of words -/

variable (cc) in
/-- Claim about the parts of a word. -/
def PartsClaim (p : Syn .parts) : Prop :=
  ∀ rest, Edge rest → ∃ ks, PieceRun (lex cc (p.text ++ rest)) ks (lex cc rest) ∧
    (merge coalesceWord ks).map stringCore.partOf = p.ast ∧
    (∀ v, .DoubleQuoted v ∈ ks → merge coalesceSimple v = v) ∧ (ks = [] ↔ p.isNil = true) ∧
    ∀ k ks', ks = k :: ks' → jointOf k = p.joint

theorem edge_text (p : Syn .parts) (rest : Str) (h : p.joint ≠ some .lit) (hr : Edge rest)
    (he : ∀ e r, p = .exp e r → ∃ x, e.text = '$' :: x) : Edge (p.text ++ rest) := by
  cases p with
  | nil => exact hr
  | lit => exact absurd rfl h
  | esc => exact ⟨_, _, rfl, by decide⟩
  | glob g => refine ⟨g.text, _, rfl, ?_⟩; cases g <;> decide
  | single => exact ⟨_, _, rfl, by decide⟩
  | double => exact ⟨_, _, rfl, by decide⟩
  | exp e r => obtain ⟨x, hx⟩ := he e r rfl; exact ⟨'$', x ++ r.text ++ rest, by simp [text_exp, hx], by decide⟩

theorem exp_text (e : Syn .exp) : ∃ x, e.text = '$' :: x := by
  cases e <;> exact ⟨_, rfl⟩

theorem edge_text' (p : Syn .parts) (rest : Str) (h : p.joint ≠ some .lit) (hr : Edge rest) :
    Edge (p.text ++ rest) := edge_text p rest h hr (fun e _ _ => exp_text e)

theorem parts_nil : PartsClaim cc .nil := by
  intro rest hr
  exact ⟨[], .nil, rfl, by simp, by simp [Syn.isNil], by simp⟩

theorem parts_lit (hs : cc.Sane) {s : Str} {r : Syn .parts} (h : LitText cc s) (hj : r.joint ≠ some .lit)
    (ih : PartsClaim cc r) : PartsClaim cc (.lit s r) := by
  intro rest hr
  obtain ⟨ks, h1, h2, h3, h4, h5⟩ := ih rest hr
  have hne : lex cc s ≠ [] := by
    intro e
    have := C01_concat_tokens cc s
    rw [e] at this
    exact h.1 this.symm
  refine ⟨(lex cc s).map (fun t => .Simple (.Literal t.asStr)) ++ ks, ?_, ?_, ?_, ?_, ?_⟩
  · rw [text_lit, List.append_assoc, lex_lit hs h (edge_text' r rest hj hr)]
    refine PieceRun.append ?_ h1
    have ht := lit_tokens hs h.2
    generalize lex cc s = u at ht
    induction u with
    | nil => exact .nil
    | cons t u ihu =>
      exact .cons (by rintro l' e; injection e with e _; exact (ht t (by simp)).ne.1 e) ((ht t (by simp)).plain.piece _ _)
        (ihu fun t h => ht t (by simp [h]))
  · rw [merge_lits hne ks (fun k' ks' e => by rw [h5 k' ks' e]; exact hj), C01_concat_tokens, List.map_cons, h2, ast_lit]
    rfl
  · intro v hv
    rcases List.mem_append.1 hv with hv | hv
    · simp at hv
    · exact h3 v hv
  · simp [Syn.isNil, hne]
  · intro k ks' e
    obtain ⟨t, u, hu⟩ := List.exists_cons_of_ne_nil hne
    rw [hu] at e
    cases e
    rfl

theorem parts_one {p r : Syn .parts} {k : WordKind CK} {w} (ih : PartsClaim cc r) (hnil : p.isNil = false)
    (hk : jointOf k = p.joint) (hjoint : p.joint = none ∨ r.joint ≠ p.joint) (ha : p.ast = w :: r.ast)
    (hw : stringCore.partOf k = w) (hd : ∀ v, k = .DoubleQuoted v → merge coalesceSimple v = v)
    (hr : ∀ rest, Edge rest → (∀ l', lex cc (p.text ++ rest) ≠ .CurlyClose :: l') ∧
      RD .piece (lex cc (p.text ++ rest)) k (lex cc (r.text ++ rest))) : PartsClaim cc p := by
  intro rest he
  obtain ⟨ks, h1, h2, h3, h4, h5⟩ := ih rest he
  obtain ⟨r1, r2⟩ := hr rest he
  refine ⟨k :: ks, .cons r1 r2 h1, ?_, ?_, by simp [hnil], ?_⟩
  · rw [merge_cons, List.map_cons, hw, h2, ha]
    rcases hjoint with h | h
    · exact .inl (hk.trans h)
    · exact .inr fun k' ks' e => by rw [h5 k' ks' e, hk]; exact h
  · intro v hv
    rcases List.mem_cons.1 hv with hv | hv
    · exact hd v hv.symm
    · exact h3 v hv
  · intro k' ks' e; cases e; exact hk

theorem parts_esc {c : Char} {r : Syn .parts} (hc : c ≠ '\n') (ih : PartsClaim cc r) : PartsClaim cc (.esc c r) := by
  have h1 := lexSingle_spec cc c
  have h2 := single_asStr h1
  refine parts_one (k := .Simple (.Escaped (lexSingle cc c).asStr)) ih rfl rfl (.inl rfl) (ha := rfl) (by rw [h2]; rfl)
    (by simp) fun rest _ => ?_
  have : (Syn.esc c r).text ++ rest = '\\' :: c :: (r.text ++ rest) := rfl
  rw [this, C03_escape_protects_one, lex_single]
  refine ⟨by simp, .escaped ?_⟩
  intro e
  rw [e] at h2
  cases h2
  exact hc rfl

theorem parts_glob (hs : cc.Sane) {g : Glob} {r : Syn .parts} (ih : PartsClaim cc r) : PartsClaim cc (.glob g r) := by
  have key : ∀ (t : Token) (k : SimpleWordKind CK), (t, k) ∈ specialTokens CK → (t.asStr, t) ∈ operators →
      (∀ p ∈ operators, t.asStr <+: p.1 → p.1 = t.asStr) → t.asStr = [g.text] → stringCore.simpleOf k = g.ast →
      (∀ s, k ≠ .Literal s) → PartsClaim cc (.glob g r) := by
    intro t k h1 h2 h3 h4 h5 h6
    refine parts_one (k := .Simple k) (w := .Simple g.ast) ih rfl ?_ (.inl rfl) (ha := rfl) (by rw [← h5]; rfl)
      (by simp) fun rest _ => ?_
    · show jointOf (.Simple k) = none
      unfold jointOf
      split
      · rename_i e; cases e; exact absurd rfl (h6 _)
      · rename_i e; cases e
      · rename_i e; cases e
      · rfl
    · have : (Syn.glob g r).text ++ rest = t.asStr ++ (r.text ++ rest) := by rw [h4]; rfl
      rw [this, lex_end hs t _ h2 h3]
      refine ⟨?_, .special h1⟩
      rintro l' e; injection e with e _; subst e; simp [specialTokens] at h1
  cases g
  · exact key .Star .Star (by simp [specialTokens]) (by decide) (by decide) rfl rfl (by simp)
  · exact key .Question .Question (by simp [specialTokens]) (by decide) (by decide) rfl rfl (by simp)
  · exact key .Tilde .Tilde (by simp [specialTokens]) (by decide) (by decide) rfl rfl (by simp)
  · exact key .SquareOpen .SquareOpen (by simp [specialTokens]) (by decide) (by decide) rfl rfl (by simp)
  · exact key .SquareClose .SquareClose (by simp [specialTokens]) (by decide) (by decide) rfl rfl (by simp)
  · exact key .Colon .Colon (by simp [specialTokens]) (by decide) (by decide) rfl rfl (by simp)

theorem parts_single (hs : cc.Sane) {s : Str} {r : Syn .parts} (hq : '\'' ∉ s) (hj : r.joint ≠ some .single)
    (ih : PartsClaim cc r) : PartsClaim cc (.single s r) := by
  refine parts_one (k := .SingleQuoted s) (w := .SingleQuoted s) ih rfl rfl (.inr hj) (ha := rfl) rfl (by simp) fun rest _ => ?_
  have : (Syn.single s r).text ++ rest = '\'' :: (s ++ '\'' :: (r.text ++ rest)) := by simp [text_single]
  obtain ⟨u, h1, h2, h3⟩ := lex_to_quote hs (r.text ++ rest) s.length s (Nat.le_refl _) hq
  rw [this, lex_quote hs, h3]
  refine ⟨by simp, ?_⟩
  have := Reads.singleQuoted (B := DefaultBuilder) (b := ()) (r := lex cc (r.text ++ rest)) h1
  rw [h2] at this
  exact this

theorem parts_exp {e : Syn .exp} {r : Syn .parts} (he : ExpClaim cc e) (ih : PartsClaim cc r) : PartsClaim cc (.exp e r) := by
  intro rest hr
  obtain ⟨k, l, h1, h2, h3, h4⟩ := he (r.text ++ rest)
  obtain ⟨ks, g1, g2, g3, g4, g5⟩ := ih rest hr
  have hk : jointOf (.Simple k : WordKind CK) = none := by
    unfold jointOf
    split
    · rename_i e; cases e; exact absurd rfl (h4 _)
    · rename_i e; cases e
    · rename_i e; cases e
    · rfl
  refine ⟨.Simple k :: ks, ?_, ?_, ?_, by simp [Syn.isNil], ?_⟩
  · rw [text_exp, List.append_assoc, h1]
    exact .cons (by simp) (.pieceParam h2) g1
  · rw [merge_cons (.inl hk), List.map_cons, g2, ast_exp, ← h3]; rfl
  · intro v hv
    rcases List.mem_cons.1 hv with hv | hv
    · cases hv
    · exact g3 v hv
  · intro k' ks' e; cases e; exact hk

/-! ## Double quotes -/

variable (cc) in
/-- Claim about the inside of double quotes. -/
def DClaim (d : Syn .dparts) : Prop :=
  d.noQuote = true → ∀ rest, ∃ qs, RD (.interpParts (some .DoubleQuote)) (lex cc (d.text ++ '"' :: rest)) qs (lex cc rest) ∧
    (gather [] qs).map stringCore.simpleOf = d.ast ∧
    List.IsChain (fun a b => ¬ MergeableSimple a b) (gather [] qs) ∧
    (d.startsText = false → (∀ s qs', qs ≠ .inl s :: qs') ∧ ∀ s ks, gather [] qs ≠ .Literal s :: ks)

theorem noQuote_dtext (s : Str) (r : Syn .dparts) : (Syn.dtext s r).noQuote = (!s.contains '"' && r.noQuote) := by
  rw [Syn.noQuote]
theorem noQuote_desc (c : Char) (r : Syn .dparts) : (Syn.desc c r).noQuote = r.noQuote := by rw [Syn.noQuote]
theorem noQuote_dexp (e : Syn .exp) (r : Syn .dparts) : (Syn.dexp e r).noQuote = r.noQuote := by rw [Syn.noQuote]

theorem d_nil : DClaim cc .dnil := by
  intro _ rest
  refine ⟨[], ?_, rfl, .nil, by simp [gather, textOf]⟩
  have : Syn.dnil.text ++ '"' :: rest = '"' :: rest := rfl
  rw [this, lex_dquote]
  exact .interpEnd

theorem dtext_edge (d : Syn .dparts) (rest : Str) (h : d.startsText = false) :
    ∃ c r, d.text ++ '"' :: rest = c :: r ∧ c ∈ dqChars := by
  cases d with
  | dnil => exact ⟨_, _, rfl, by decide⟩
  | dtext => cases h
  | desc => exact ⟨_, _, rfl, by decide⟩
  | dexp e r => obtain ⟨x, hx⟩ := exp_text e; exact ⟨'$', _, by rw [text_dexp, hx]; rfl, by decide⟩

theorem d_text (hs : cc.Sane) {s : Str} {d : Syn .dparts} (h : DqPlain s) (hd : d.startsText = false) (ih : DClaim cc d) :
    DClaim cc (.dtext s d) := by
  intro hn rest
  rw [noQuote_dtext] at hn
  obtain ⟨hn1, hn2⟩ := Bool.and_eq_true _ _ ▸ hn
  obtain ⟨qs, h1, h2, h3, h4⟩ := ih hn2 rest
  obtain ⟨c, r, hc, hm⟩ := dtext_edge d rest hd
  obtain ⟨u, u1, u2, u3⟩ := lex_to_special hs c hm r s.length s (Nat.le_refl _)
    (fun d hd hm => by
      by_cases e : d = '"'
      · subst e; simp [hm] at hn1
      · exact h.2 d hm (by revert hd; simp [dqChars]; tauto))
  have hg : gather [] (u.map (fun t => .inl t.asStr) ++ qs) = .Literal s :: gather [] qs := by
    have : ∀ (u : List Token) (s0 : Str), gather s0 (u.map (fun t => (.inl t.asStr : Str ⊕ SimpleWordKind CK)) ++ qs) =
        textOf (s0 ++ concatTokens u) ++ gather [] qs := by
      intro u
      induction u with
      | nil =>
        intro s0
        rw [List.map_nil, List.nil_append, concatTokens, List.flatMap_nil, List.append_nil]
        match qs, (h4 hd).1 with
        | [], _ => simp [gather, textOf]
        | .inr w :: qs, _ => simp [gather, textOf]
        | .inl t :: qs, h => exact absurd rfl (h t qs)
      | cons t u ihu =>
        intro s0
        rw [List.map_cons, List.cons_append, gather, ihu, concatTokens_cons, List.append_assoc]
    rw [this, List.nil_append, u2, textOf, if_neg h.1]; rfl
  refine ⟨u.map (fun t => .inl t.asStr) ++ qs, ?_, ?_, ?_, by simp [Syn.startsText]⟩
  · have e : (Syn.dtext s d).text ++ '"' :: rest = s ++ (d.text ++ '"' :: rest) := by simp [text_dtext]
    rw [e, hc, u3, ← hc]
    clear u2 u3 hg
    induction u with
    | nil => exact h1
    | cons t u ihu =>
      have ht := u1 t (by simp)
      refine .interpText ?_ ?_ ?_ (ihu fun t h => u1 t (by simp [h]))
      · rintro e; cases e; revert ht; decide
      · intro e; simp only [List.mem_cons, List.not_mem_nil, or_false] at e
        rcases e with rfl | rfl | rfl <;> (revert ht; decide)
      · rintro p rfl; revert ht; cases p <;> decide
  · rw [hg, List.map_cons, h2, ast_dtext]; rfl
  · rw [hg, List.isChain_cons]
    refine ⟨?_, h3⟩
    intro y hy hm
    have := (h4 hd).2
    generalize gather [] qs = z at hy this
    cases z with
    | nil => cases hy
    | cons x z =>
      cases hy
      unfold MergeableSimple at hm
      split at hm
      · exact this _ _ rfl
      · exact hm

theorem chain_cons_other {C : Type} {k : SimpleWordKind C} {z} (hk : ∀ s, k ≠ .Literal s)
    (h : List.IsChain (fun a b => ¬ MergeableSimple a b) z) : List.IsChain (fun a b => ¬ MergeableSimple a b) (k :: z) := by
  rw [List.isChain_cons]
  refine ⟨fun y _ hm => ?_, h⟩
  unfold MergeableSimple at hm
  split at hm
  · exact hk _ rfl
  · exact hm

theorem d_esc {c : Char} {d : Syn .dparts} (hc : c ∈ "$`\"\\\n".toList) (ih : DClaim cc d) :
    DClaim cc (.desc c d) := by
  intro hn rest
  rw [noQuote_desc] at hn
  obtain ⟨qs, h1, h2, h3, h4⟩ := ih hn rest
  have h5 := lexSingle_spec cc c
  have h6 := single_asStr h5
  refine ⟨.inr (.Escaped (lexSingle cc c).asStr) :: qs, ?_, ?_, ?_, ?_⟩
  · have e : (Syn.desc c d).text ++ '"' :: rest = '\\' :: c :: (d.text ++ '"' :: rest) := rfl
    rw [e, C03_escape_protects_one, lex_single]
    refine .interpEscaped (by simp) (.inl ?_) h1
    have key : ∀ c ∈ "$`\"\\\n".toList, ∀ t, Single cc c t → t ∈ quotable := by
      intro c hc t ht
      have : c = '$' ∨ c = '`' ∨ c = '"' ∨ c = '\\' ∨ c = '\n' := by
        clear ht h1 h2 h3 h4 h5 h6; revert c; decide
      rcases this with rfl | rfl | rfl | rfl | rfl
      · rw [single_unique ht (.op (t := .Dollar) (by decide))]; decide
      · rw [single_unique ht (.op (t := .Backtick) (by decide))]; decide
      · rw [single_unique ht (.op (t := .DoubleQuote) (by decide))]; decide
      · rw [single_unique ht .backslash]; decide
      · rw [single_unique ht (.op (t := .Newline) (by decide))]; decide
    exact key c hc _ h5
  · rw [gather, textOf, if_pos rfl, List.nil_append, List.map_cons, h2, ast_desc, h6]; rfl
  · rw [gather, textOf, if_pos rfl, List.nil_append]
    exact chain_cons_other (by simp) h3
  · intro _
    rw [gather, textOf, if_pos rfl, List.nil_append]
    simp

theorem d_exp {e : Syn .exp} {d : Syn .dparts} (he : ExpClaim cc e) (ih : DClaim cc d) :
    DClaim cc (.dexp e d) := by
  intro hn rest
  rw [noQuote_dexp] at hn
  obtain ⟨qs, h1, h2, h3, h4⟩ := ih hn rest
  obtain ⟨k, l, g1, g2, g3, g4⟩ := he (d.text ++ '"' :: rest)
  refine ⟨.inr k :: qs, ?_, ?_, ?_, ?_⟩
  · rw [text_dexp, List.append_assoc, g1]
    exact .interpParam (by rintro t l' e; cases e; simp) g2 h1
  · rw [gather, textOf, if_pos rfl, List.nil_append, List.map_cons, h2, ast_dexp, g3]
  · rw [gather, textOf, if_pos rfl, List.nil_append]
    exact chain_cons_other g4 h3
  · intro _
    rw [gather, textOf, if_pos rfl, List.nil_append]
    exact ⟨by simp, fun s ks e => by cases e; exact g4 _ rfl⟩

theorem parts_double {d : Syn .dparts} {r : Syn .parts} (hn : d.noQuote = true) (hd : DClaim cc d) (hj : r.joint ≠ some .double)
    (ih : PartsClaim cc r) : PartsClaim cc (.double d r) := by
  intro rest hr
  obtain ⟨qs, h1, h2, h3, -⟩ := hd hn (r.text ++ rest)
  obtain ⟨ks, g1, g2, g3, g4, g5⟩ := ih rest hr
  refine ⟨.DoubleQuoted (gather [] qs) :: ks, ?_, ?_, ?_, by simp [Syn.isNil], ?_⟩
  · have : (Syn.double d r).text ++ rest = '"' :: (d.text ++ '"' :: (r.text ++ rest)) := by simp [text_double]
    rw [this, lex_dquote]
    exact .cons (by simp) (.doubleQuoted (.interp h1)) g1
  · rw [merge_cons, List.map_cons, g2, ast_double, ← h2]; rfl
    exact .inr fun k' ks' e => by rw [g5 k' ks' e]; exact hj
  · intro v hv
    rcases List.mem_cons.1 hv with hv | hv
    · cases hv
      exact merge_fixed (fun a b h => coalesceSimple_not h) _ h3
    · exact g3 v hv
  · intro k' ks' e; cases e; rfl

/-! ## Substitutions -/

/-- The first token of a word. -/
theorem parts_first (hs : cc.Sane) (p : Syn .parts) (hp : p.Ok cc false) (rest : Str) (hr : Edge rest) (hn : p.isNil = false) :
    ∃ t l, lex cc (p.text ++ rest) = t :: l ∧
      ((∃ s r, p = .lit s r ∧ LitTok t ∧ ∃ u, lex cc s = t :: u) ∨
        (∀ s r, p ≠ .lit s r) ∧ t ∈ [Token.Backslash, .Star, .Question, .Tilde, .SquareOpen, .SquareClose, .Colon, .SingleQuote,
          .DoubleQuote, .Dollar]) := by
  cases p with
  | nil => cases hn
  | lit s r =>
    rw [Ok_lit] at hp
    have hne : lex cc s ≠ [] := by
      intro e
      have := C01_concat_tokens cc s
      rw [e] at this
      exact hp.1.1 this.symm
    obtain ⟨t, u, hu⟩ := List.exists_cons_of_ne_nil hne
    refine ⟨t, u ++ lex cc (r.text ++ rest), ?_, .inl ⟨s, r, rfl, lit_tokens hs hp.1.2 t (by rw [hu]; simp), u, hu⟩⟩
    · rw [text_lit, List.append_assoc, lex_lit hs hp.1 (edge_text' r rest hp.2.1 hr), hu]; rfl
  | esc c r =>
    have : (Syn.esc c r).text ++ rest = '\\' :: c :: (r.text ++ rest) := rfl
    rw [this, C03_escape_protects_one]
    exact ⟨_, _, rfl, .inr ⟨by simp, by decide⟩⟩
  | glob g r =>
    have key : ∀ t : Token, (t.asStr, t) ∈ operators → (∀ p ∈ operators, t.asStr <+: p.1 → p.1 = t.asStr) →
        t.asStr = [g.text] → lex cc ((Syn.glob g r).text ++ rest) = t :: lex cc (r.text ++ rest) := by
      intro t h2 h3 h4
      have : (Syn.glob g r).text ++ rest = t.asStr ++ (r.text ++ rest) := by rw [h4]; rfl
      rw [this, lex_end hs t _ h2 h3]
    cases g
    · exact ⟨_, _, key .Star (by decide) (by decide) rfl, .inr ⟨by simp, by decide⟩⟩
    · exact ⟨_, _, key .Question (by decide) (by decide) rfl, .inr ⟨by simp, by decide⟩⟩
    · exact ⟨_, _, key .Tilde (by decide) (by decide) rfl, .inr ⟨by simp, by decide⟩⟩
    · exact ⟨_, _, key .SquareOpen (by decide) (by decide) rfl, .inr ⟨by simp, by decide⟩⟩
    · exact ⟨_, _, key .SquareClose (by decide) (by decide) rfl, .inr ⟨by simp, by decide⟩⟩
    · exact ⟨_, _, key .Colon (by decide) (by decide) rfl, .inr ⟨by simp, by decide⟩⟩
  | single s r =>
    have : (Syn.single s r).text ++ rest = '\'' :: (s ++ '\'' :: (r.text ++ rest)) := by simp [text_single]
    rw [this, lex_quote hs]
    exact ⟨_, _, rfl, .inr ⟨by simp, by decide⟩⟩
  | double d r =>
    have : (Syn.double d r).text ++ rest = '"' :: (d.text ++ '"' :: (r.text ++ rest)) := by simp [text_double]
    rw [this, lex_dquote]
    exact ⟨_, _, rfl, .inr ⟨by simp, by decide⟩⟩
  | exp e r =>
    have : ∃ l, lex cc ((Syn.exp e r).text ++ rest) = .Dollar :: l := by
      have key : ∃ c x, e.text = '$' :: c :: x ∧ isDigit c = false := by cases e <;> exact ⟨_, _, rfl, by decide⟩
      obtain ⟨c, x, hx, hc⟩ := key
      refine ⟨lex cc (c :: (x ++ (r.text ++ rest))), ?_⟩
      have : (Syn.exp e r).text ++ rest = '$' :: c :: (x ++ (r.text ++ rest)) := by rw [text_exp, hx]; simp
      rw [this]
      exact lex_dollar hs (by intro d hd; cases hd; exact hc)
    obtain ⟨l, hl⟩ := this
    rw [hl]
    exact ⟨_, _, rfl, .inr ⟨by simp, by decide⟩⟩

/-- The first token is `#` only if the first character is. -/
theorem first_not (hs : cc.Sane) (p : Syn .parts) (hp : p.Ok cc false) (rest : Str) (hr : Edge rest) (hn : p.isNil = false)
    {t : Token} {c : Char} (ht : t.asStr = [c])
    (hm : t ∉ [Token.Backslash, .Star, .Question, .Tilde, .SquareOpen, .SquareClose, .Colon, .SingleQuote, .DoubleQuote, .Dollar])
    (hc : p.firstChar ≠ some c) (l : List Token) : lex cc (p.text ++ rest) ≠ t :: l := by
  obtain ⟨t', l', h1, h2⟩ := parts_first hs p hp rest hr hn
  rw [h1]
  intro e
  injection e with e _
  subst e
  rcases h2 with ⟨s, r, rfl, -, u, hu⟩ | ⟨-, h2⟩
  · have := C01_concat_tokens cc s
    rw [hu, concatTokens_cons, ht] at this
    apply hc
    rw [← this]; rfl
  · exact hm h2

/-- A substitution with the text `t` for its word. -/
theorem subst_core (hs : cc.Sane) {op : SubstOp} {p : Parameter Str} {w : Syn .parts} (hp : ValidParam cc p)
    (hf : op.Fits p w) {t rest : Str} {ks : List (WordKind CK)} (h1 : PieceRun (lex cc t) ks (lex cc ('}' :: rest)))
    (h2 : (merge coalesceWord ks).map stringCore.partOf = w.ast) (h3 : ∀ v, .DoubleQuoted v ∈ ks → merge coalesceSimple v = v)
    (h4 : ks = [] ↔ w.isNil = true) (hpound : ∀ l', lex cc t ≠ .Pound :: l')
    (hpercent : op = .suffix false → ∀ l', lex cc t ≠ .Percent :: l') :
    ∃ k l, lex cc ("${".toList ++ paramText p ++ op.text ++ t) = .Dollar :: l ∧
      RD .param (.Dollar :: l) k (lex cc rest) ∧ stringCore.simpleOf k = .Subst (op.ast p (optAst w.ast)) ∧ ∀ s, k ≠ .Literal s := by
  have hcl := lex_close hs rest
  rw [hcl] at h1
  have hsub : RD .substWord (lex cc t) (wordOf ks) (lex cc rest) :=
    .substWord (h1.subst false fun _ => hpound)
  have hast : (wordOf ks).map stringCore.word = optAst w.ast := by rw [opt_of h3, h2]
  have hnone : wordOf ks = none → w.isNil = true := by
    intro h
    refine h4.1 ?_
    match ks, h with
    | [], _ => rfl
    | [_], h => cases h
  -- the text
  have key : ∀ (op : Str) (c : Char) (x : Str) (us : List Token) (k : SimpleWordKind CK) (a : SSimple), op = c :: x →
      c ∈ "}-=?+:%#".toList →
      (lex cc (op ++ t) = us ++ lex cc t) →
      RD (.curly p) (us ++ lex cc t) k (lex cc rest) → (∀ s, k ≠ .Literal s) → stringCore.simpleOf k = a →
      ∃ k l, lex cc ("${".toList ++ paramText p ++ op ++ t) = .Dollar :: l ∧
        RD .param (.Dollar :: l) k (lex cc rest) ∧ stringCore.simpleOf k = a ∧ ∀ s, k ≠ .Literal s := by
    intro op c x us k a e hm hl hr hk ha
    subst e
    obtain ⟨pt, t1, t2, -⟩ := param_tok hs p hp c (x ++ t) hm
    refine ⟨k, _, ?_, .braced t2 hr, ha, hk⟩
    have : "${".toList ++ paramText p ++ c :: x ++ t =
        '$' :: '{' :: (paramText p ++ c :: (x ++ t)) := by simp
    rw [this, lex_brace hs, t1]
    rw [List.cons_append] at hl
    rw [hl]
  have hcol : ∀ s, lex cc (':' :: s) = .Colon :: lex cc s := fun s => lex_end hs .Colon s (by decide) (by decide)
  have hone : ∀ (k : Token) (c : Char), k.asStr = [c] → (k.asStr, k) ∈ operators →
      (∀ p ∈ operators, k.asStr <+: p.1 → p.1 = k.asStr) → ∀ s, lex cc (c :: s) = k :: lex cc s := by
    intro k c e h1 h2 s
    have := lex_end hs k s h1 h2
    rwa [e] at this
  have hdash := hone .Dash '-' rfl (by decide) (by decide)
  have heq := hone .Equals '=' rfl (by decide) (by decide)
  have hq := hone .Question '?' rfl (by decide) (by decide)
  have hplus := hone .Plus '+' rfl (by decide) (by decide)
  have hper := hone .Percent '%' rfl (by decide) (by decide)
  have hpo := hone .Pound '#' rfl (by decide) (by decide)
  have hpid : mapParam (id : Str → Str) p = p := mapParam_id p
  cases op with
  | default colon =>
    cases colon with
    | true =>
      refine key _ ':' ['-'] [.Colon, .Dash] (.Subst (.Default true p (wordOf ks))) _ rfl (by decide) ?_
        (.curlyColonOp (t := .Dash) (mk := .Default) (by simp [substOps]) hsub) (by simp) ?_
      · exact (hcol _).trans (congrArg _ (hdash _))
      · simp only [Core.simpleOf, Core.substOf, hpid, hast, SubstOp.ast]
    | false =>
      refine key _ '-' [] [.Dash] (.Subst (.Default false p (wordOf ks))) _ rfl (by decide) ?_
        (.curlyOp (t := .Dash) (mk := .Default) (by simp [substOps]) hsub ?_) (by simp) ?_
      · exact hdash _
      · rintro ⟨e1, -, e2⟩
        have := hf e1
        rw [hnone e2] at this; cases this
      · simp only [Core.simpleOf, Core.substOf, hpid, hast, SubstOp.ast]
  | assign colon =>
    cases colon with
    | true =>
      refine key _ ':' ['='] [.Colon, .Equals] (.Subst (.Assign true p (wordOf ks))) _ rfl (by decide) ?_
        (.curlyColonOp (t := .Equals) (mk := .Assign) (by simp [substOps]) hsub) (by simp) ?_
      · exact (hcol _).trans (congrArg _ (heq _))
      · simp only [Core.simpleOf, Core.substOf, hpid, hast, SubstOp.ast]
    | false =>
      refine key _ '=' [] [.Equals] (.Subst (.Assign false p (wordOf ks))) _ rfl (by decide) ?_
        (.curlyOp (t := .Equals) (mk := .Assign) (by simp [substOps]) hsub (by simp)) (by simp) ?_
      · exact heq _
      · simp only [Core.simpleOf, Core.substOf, hpid, hast, SubstOp.ast]
  | error colon =>
    cases colon with
    | true =>
      refine key _ ':' ['?'] [.Colon, .Question] (.Subst (.Error true p (wordOf ks))) _ rfl (by decide) ?_
        (.curlyColonOp (t := .Question) (mk := .Error) (by simp [substOps]) hsub) (by simp) ?_
      · exact (hcol _).trans (congrArg _ (hq _))
      · simp only [Core.simpleOf, Core.substOf, hpid, hast, SubstOp.ast]
    | false =>
      refine key _ '?' [] [.Question] (.Subst (.Error false p (wordOf ks))) _ rfl (by decide) ?_
        (.curlyOp (t := .Question) (mk := .Error) (by simp [substOps]) hsub ?_) (by simp) ?_
      · exact hq _
      · rintro ⟨e1, -, e2⟩
        have := hf e1
        rw [hnone e2] at this; cases this
      · simp only [Core.simpleOf, Core.substOf, hpid, hast, SubstOp.ast]
  | alternative colon =>
    cases colon with
    | true =>
      refine key _ ':' ['+'] [.Colon, .Plus] (.Subst (.Alternative true p (wordOf ks))) _ rfl (by decide) ?_
        (.curlyColonOp (t := .Plus) (mk := .Alternative) (by simp [substOps]) hsub) (by simp) ?_
      · exact (hcol _).trans (congrArg _ (hplus _))
      · simp only [Core.simpleOf, Core.substOf, hpid, hast, SubstOp.ast]
    | false =>
      refine key _ '+' [] [.Plus] (.Subst (.Alternative false p (wordOf ks))) _ rfl (by decide) ?_
        (.curlyOp (t := .Plus) (mk := .Alternative) (by simp [substOps]) hsub (by simp)) (by simp) ?_
      · exact hplus _
      · simp only [Core.simpleOf, Core.substOf, hpid, hast, SubstOp.ast]
  | suffix largest =>
    cases largest with
    | true =>
      refine key _ '%' ['%'] [.Percent, .Percent] (.Subst (.RemoveLargestSuffix p (wordOf ks))) _ rfl (by decide) ?_
        (.curlyPercent2 hsub) (by simp) ?_
      · exact (hper _).trans (congrArg _ (hper _))
      · simp only [Core.simpleOf, Core.substOf, hpid, hast, SubstOp.ast, if_true]
    | false =>
      refine key _ '%' [] [.Percent] (.Subst (.RemoveSmallestSuffix p (wordOf ks))) _ rfl (by decide) ?_
        (.curlyPercent ?_ hsub) (by simp) ?_
      · exact hper _
      · exact hpercent rfl
      · simp only [Core.simpleOf, Core.substOf, hpid, hast, SubstOp.ast]; rfl
  | pre largest =>
    cases largest with
    | true =>
      refine key _ '#' ['#'] [.Pound, .Pound] (.Subst (.RemoveLargestPrefix p (wordOf ks))) _ rfl (by decide) ?_
        (.curlyPound2 hsub) (by simp) ?_
      · exact (hpo _).trans (congrArg _ (hpo _))
      · simp only [Core.simpleOf, Core.substOf, hpid, hast, SubstOp.ast, if_true]
    | false =>
      refine key _ '#' [] [.Pound] (.Subst (.RemoveSmallestPrefix p (wordOf ks))) _ rfl (by decide) ?_
        (.curlyPound hpound hsub ?_) (by simp) ?_
      · exact hpo _
      · rintro ⟨e1, e2⟩
        have := hf e1
        rw [hnone e2] at this; cases this
      · simp only [Core.simpleOf, Core.substOf, hpid, hast, SubstOp.ast]; rfl


theorem exp_subst (hs : cc.Sane) {op : SubstOp} {p : Parameter Str} {w : Syn .parts} (hp : ValidParam cc p)
    (hw : w.Ok cc false) (hc : w.firstChar ≠ some '#') (hf : op.Fits p w) (ih : PartsClaim cc w) : ExpClaim cc (.subst op p w) := by
  intro rest
  have hedge : Edge ('}' :: rest) := ⟨_, _, rfl, by decide⟩
  obtain ⟨ks, h1, h2, h3, h4, -⟩ := ih ('}' :: rest) hedge
  have hne : ∀ {k : Token} {c : Char}, k.asStr = [c] → k ≠ .CurlyClose →
      k ∉ [Token.Backslash, .Star, .Question, .Tilde, .SquareOpen, .SquareClose, .Colon, .SingleQuote, .DoubleQuote, .Dollar] →
      w.firstChar ≠ some c → ∀ l', lex cc (w.text ++ '}' :: rest) ≠ k :: l' := by
    intro k c e hk hm hc
    by_cases hn : w.isNil = true
    · cases w with
      | nil =>
        intro l' e
        have : Syn.nil.text ++ '}' :: rest = '}' :: rest := rfl
        rw [this, lex_close hs] at e
        injection e with e _
        exact hk e.symm
      | _ => cases hn
    · exact first_not hs w hw _ hedge (by simpa using hn) e hm hc
  have e : (Syn.subst op p w).text ++ rest = "${".toList ++ paramText p ++ op.text ++ (w.text ++ '}' :: rest) := by
    rw [text_subst]; simp
  rw [e]
  refine subst_core hs hp hf h1 h2 h3 h4 (hne (c := '#') rfl (by simp) (by decide) hc) ?_
  rintro rfl
  exact hne (c := '%') rfl (by simp) (by decide) hf

end
end Conch
