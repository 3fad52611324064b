import Verif.LayoutLex
import Verif.PropsHeredoc
import Verif.PropsCompress
/-!
# Every way of writing a word (C57)
-/
namespace Conch
open Spec Gram

/-! ## Specification -/

/-- What a word consists of after quote removal: characters, each quoted or not; unquoted characters
that are active in patterns and tilde expansion; parameters, quoted or not; other expansions. -/
inductive Spec.Item
  | chr (c : Char) (quoted : Bool)
  | active (c : Char)
  | param (p : Parameter Str) (quoted : Bool)
  | other
deriving DecidableEq

/-- The characters that are active when they are not quoted. -/
def Spec.activeChars : Str := "*?[]~:".toList

/-- What an unquoted character stands for. -/
def Spec.bareItem (c : Char) : Item := if c ∈ activeChars then .active c else .chr c false

/-- Quoted text. -/
def Spec.quotedItems (s : Str) : List Item := s.map fun c => .chr c true

section
variable (cc : CharClass)

/-- `WritesParam cc q p s`: before the text `s`, the text `p` is a way of writing the parameter `q`: as it
is displayed (`${x}`, `$1`, `${10}`, `$?`, ...; not before a digit), or `$x`. -/
inductive Spec.WritesParam : Parameter Str → Str → Str → Prop
  | display {q : Parameter Str} {s : Str} : ValidParam cc q → (∀ c, s.head? = some c → isDigit c = false) →
      WritesParam q q.display s
  | var {x s : Str} : Shape cc (.Name x) → NameStop cc s → WritesParam (.Var x) ('$' :: x) s

/-- `DqWritten cc is p`: between double quotes, `p` is a way of writing `is`. -/
inductive Spec.DqWritten : List Item → Str → Prop
  | nil : DqWritten [] []
  | char {c is p} : c ∉ dqChars → DqWritten is p → DqWritten (.chr c true :: is) (c :: p)
  /-- a backslash quotes `$`, a backtick, `"` and `\` -/
  | escaped {c is p} : c ∈ dqChars → DqWritten is p → DqWritten (.chr c true :: is) ('\\' :: c :: p)
  /-- before other characters it stands for itself -/
  | backslash {c is p} : c ∉ dqChars → c ≠ '\n' → DqWritten is p →
      DqWritten (.chr '\\' true :: .chr c true :: is) ('\\' :: c :: p)
  | param {q w is p} : WritesParam cc q w p → DqWritten is p → DqWritten (.param q true :: is) (w ++ p)

/-- `Written cc is p`: the text `p` is a way of writing the word `is`. -/
inductive Spec.Written : List Item → Str → Prop
  | nil : Written [] []
  | bare {c is p} : Bare cc c → Written is p → Written (bareItem c :: is) (c :: p)
  | escaped {c is p} : c ≠ '\n' → Written is p → Written (.chr c true :: is) ('\\' :: c :: p)
  | single {s is p} : '\'' ∉ s → Written is p → Written (quotedItems s ++ is) ('\'' :: (s ++ '\'' :: p))
  | double {js s is p} : DqWritten cc js s → Written is p → Written (js ++ is) ('"' :: (s ++ '"' :: p))
  | param {q w is p} : WritesParam cc q w p → Written is p → Written (.param q false :: is) (w ++ p)

end

/-- The items of a fragment of a word; `q` says whether it is in double quotes. -/
def Spec.simpleItems {W C : Type} (q : Bool) :
    SimpleWord Str (Parameter Str) (ParameterSubstitution (Parameter Str) W C (Arithmetic Str)) → List Item
  | .Literal s => s.map fun c => .chr c q
  | .Escaped s => quotedItems s
  | .Param p => [.param p q]
  | .Subst _ => [.other]
  | .Star => [.active '*']
  | .Question => [.active '?']
  | .SquareOpen => [.active '[']
  | .SquareClose => [.active ']']
  | .Tilde => [.active '~']
  | .Colon => [.active ':']

/-- The items of a part of a word. -/
def Spec.partItems {W C : Type} :
    Word Str (SimpleWord Str (Parameter Str) (ParameterSubstitution (Parameter Str) W C (Arithmetic Str))) → List Item
  | .Simple s => simpleItems false s
  | .SingleQuoted s => quotedItems s
  | .DoubleQuoted ss => ss.flatMap (simpleItems true)

/-- The items of a word. -/
def Spec.wordItems : TopLevelWord Str → List Item
  | .mk (.Single w) => partItems w
  | .mk (.Concat ws) => ws.flatMap partItems

/-! ## The words given to the builder -/

section
variable {C : Type}

/-- The items of a fragment given to a builder. -/
def ksItems (q : Bool) : SimpleWordKind C → List Item
  | .Literal s => s.map fun c => .chr c q
  | .Escaped s => quotedItems s
  | .Param p => [.param p q]
  | .Subst _ => [.other]
  | .CommandSubst _ => [.other]
  | .Star => [.active '*']
  | .Question => [.active '?']
  | .SquareOpen => [.active '[']
  | .SquareClose => [.active ']']
  | .Tilde => [.active '~']
  | .Colon => [.active ':']

/-- The items of a part of a word given to a builder. -/
def kpItems : WordKind C → List Item
  | .Simple s => ksItems false s
  | .SingleQuoted s => quotedItems s
  | .DoubleQuoted ss => ss.flatMap (ksItems true)

/-- The items of a word given to a builder. -/
def kItems (k : ComplexWordKind C) : List Item := (parts k).flatMap kpItems

theorem ksItems_joined {q : Bool} {v v' : List (SimpleWordKind C)} (h : Joined JoinSimple v v') :
    v'.flatMap (ksItems q) = v.flatMap (ksItems q) := by
  refine joined_atoms ?_ h
  rintro _ _ _ ⟨a, b⟩
  simp [ksItems]

theorem kItems_compress (k : ComplexWordKind C) : kItems (compress k) = kItems k := by
  rcases C32_only_joins_neighbours k with h | ⟨v, v', h1, h2, h⟩
  · refine joined_atoms ?_ h
    intro a b c hj
    cases hj with
    | literal a b => simp [kpItems, ksItems]
    | singleQuoted a b => simp [kpItems, quotedItems]
    | doubleQuoted hj => simp only [kpItems, ksItems_joined hj]; simp
  · rw [h2, h1]
    simp only [kItems, parts, List.flatMap_cons, List.flatMap_nil, kpItems, ksItems_joined h]

theorem kItems_wordWith (ws : List (WordKind C)) : kItems (wordWith ws) = ws.flatMap kpItems := by
  rcases ws with _ | ⟨_, _ | _⟩ <;> rfl

theorem mapParam_self (p : Parameter Str) : mapParam (T := Str) id p = p := by cases p <;> rfl

theorem simpleItems_of (q : Bool) (s : SimpleWordKind (TopLevelCommand Str)) :
    simpleItems q (stringCore.simpleOf s) = ksItems q s := by
  cases s with
  | Param p => exact congrArg (fun p => [Item.param p q]) (mapParam_self p)
  | _ => rfl

theorem flatMap_simpleOf (q : Bool) (v : List (SimpleWordKind (TopLevelCommand Str))) :
    (v.map stringCore.simpleOf).flatMap (simpleItems q) = v.flatMap (ksItems q) := by
  induction v with
  | nil => rfl
  | cons a v ih => exact congr (congrArg _ (simpleItems_of q a)) ih

theorem partItems_of (s : WordKind (TopLevelCommand Str)) : partItems (stringCore.partOf s) = kpItems s := by
  cases s with
  | Simple s => exact simpleItems_of false s
  | SingleQuoted => rfl
  | DoubleQuoted v => exact flatMap_simpleOf true v

theorem wordItems_complex (k : ComplexWordKind (TopLevelCommand Str)) :
    wordItems (stringCore.ofWord (stringCore.complexOf k)) = kItems k := by
  cases k with
  | Single s =>
    have : kItems (.Single s) = kpItems s := by simp [kItems, parts]
    rw [this]; exact partItems_of s
  | Concat v =>
    show (v.map stringCore.partOf).flatMap partItems = v.flatMap kpItems
    induction v with
    | nil => rfl
    | cons a v ih => exact congr (congrArg _ (partItems_of a)) ih

/-- The default builder keeps the items. -/
theorem wordItems_word (k : ComplexWordKind (TopLevelCommand Str)) :
    wordItems (stringCore.word k) = kItems k := by
  rw [C32_default_builder_compresses, wordItems_complex, kItems_compress]

end

/-! ## Reading -/

section
variable {cc : CharClass} {B : Builder} {b : B.State}

theorem head_not_name (hs : cc.Sane) {rest : Str} (hr : Gram.EndsWord (lex cc rest)) : NameStop cc rest := by
  intro c hc
  rw [← Bool.not_eq_true]
  intro hd
  rcases rest with _ | ⟨d, r⟩
  · cases hc
  cases hc
  have hp := hs.plain (c := c) hd
  rcases lexes_cons_inv (lex_lexes cc (c :: r)) with ⟨rfl, _⟩ | ⟨_, _, _, _, rfl, _⟩ | ⟨_, _, _, _, ho, _⟩ |
      ⟨_, _, _, _, _, hw, _⟩ | ⟨_, _, _, _, _, _, h, _⟩ | ⟨_, _, _, _, _, _, h, _⟩
  · exact hp.1 rfl
  · exact hp.1 rfl
  · exact hp.2.1 ho
  · rw [hp.2.2] at hw; cases hw
  · have := hr _ _ h; cases this
  · have := hr _ _ h; cases this

theorem head_not_plain {rest : Str} (hr : Gram.EndsWord (lex cc rest)) {c : Char} {r : Str} (e : rest = c :: r) :
    ¬ Plain cc c := by
  subst e
  rintro ⟨h1, h2, h3⟩
  rcases lexes_cons_inv (lex_lexes cc (c :: r)) with ⟨rfl, _⟩ | ⟨_, _, _, _, rfl, _⟩ | ⟨_, _, _, _, ho, _⟩ |
      ⟨_, _, _, _, _, hw, _⟩ | ⟨_, _, _, _, _, _, h, _⟩ | ⟨_, _, _, _, _, _, h, _⟩
  · exact h1 rfl
  · exact h1 rfl
  · exact h2 ho
  · rw [h3] at hw; cases hw
  · have := hr _ _ h; cases this
  · have := hr _ _ h; cases this

theorem digit_name {c : Char} (h : cc.nameChar c = false) : isDigit c = false := by
  rw [← Bool.not_eq_true]
  intro hd
  simp [CharClass.nameChar, hd] at h

theorem Spec.WritesParam.starts {q : Parameter Str} {w s : Str} (h : WritesParam cc q w s) : ∃ r, w = '$' :: r := by
  cases h with
  | display h3 h4 =>
    cases q with
    | Positional n =>
      by_cases hn : n ≤ 9
      · refine ⟨natDigits n, ?_⟩
        show (if n ≤ 9 then _ else _) = _
        rw [if_pos hn]; rfl
      · refine ⟨'{' :: (natDigits n ++ ['}']), ?_⟩
        show (if n ≤ 9 then _ else _) = _
        rw [if_neg hn]; rfl
    | _ => exact ⟨_, rfl⟩
  | var => exact ⟨_, rfl⟩

/-- Reading a parameter. -/
theorem param_reads (hs : cc.Sane) {q : Parameter Str} {w s : Str} (h : WritesParam cc q w s) (b : B.State) :
    Reads .param b (lex cc (w ++ s)) (.Param q) (lex cc s) b ∧ ∃ r, w = '$' :: r := by
  refine ⟨?_, h.starts⟩
  cases h with
  | display h1 h2 => exact (display_reads hs q h1 s h2 b).1
  | @var x s h1 h2 =>
    have hd : ∀ c, (x ++ s).head? = some c → isDigit c = false := by
      obtain ⟨c, r, rfl, hc, -⟩ := h1
      rintro d hd
      cases hd
      rcases hc with rfl | hc
      · decide
      · rw [← Bool.not_eq_true]
        intro h
        rw [hs.digit c h] at hc; cases hc
    rw [List.cons_append, lex_dollar hs hd, lex_name' hs h1 h2]
    exact .parameter .var

/-- The items of the parts of a double quoted word. -/
def psItems {C : Type} : List (Str ⊕ SimpleWordKind C) → List Item
  | [] => []
  | .inl s :: ps => quotedItems s ++ psItems ps
  | .inr w :: ps => ksItems true w ++ psItems ps

theorem gather_items {C : Type} (ps : List (Str ⊕ SimpleWordKind C)) : ∀ s,
    (gather s ps).flatMap (ksItems true) = quotedItems s ++ psItems ps := by
  have ht : ∀ s : Str, (textOf (C := C) s).flatMap (ksItems true) = quotedItems s := by
    intro s
    unfold textOf
    split
    · rename_i h; simp [h, quotedItems]
    · simp [ksItems, quotedItems]
  induction ps with
  | nil => intro s; simpa [gather, psItems] using ht s
  | cons p ps ih =>
    intro s
    cases p with
    | inl t => simp only [gather, psItems]; rw [ih]; simp [quotedItems]
    | inr w => simp only [gather, psItems, List.flatMap_append, List.flatMap_cons]; rw [ih, ht]; simp [quotedItems]

/-- Text in double quotes up to what is special. -/
theorem dq_split {is : List Item} {p : Str} (h : DqWritten cc is p) :
    ∃ s js p', is = quotedItems s ++ js ∧ p = s ++ p' ∧ (∀ d ∈ dqChars, d ∉ s) ∧ DqWritten cc js p' ∧
      (p' = [] ∨ ∃ c r, p' = c :: r ∧ c ∈ dqChars) ∧ ((∃ c r, p = c :: r ∧ c ∉ dqChars) → s ≠ []) := by
  induction h with
  | nil => exact ⟨[], [], [], rfl, rfl, by simp, .nil, .inl rfl, by rintro ⟨c, r, h, -⟩; cases h⟩
  | char h1 _ ih =>
    obtain ⟨s, js, p', rfl, rfl, h2, h3, h4, -⟩ := ih
    refine ⟨_ :: s, js, p', rfl, rfl, ?_, h3, h4, by simp⟩
    intro d hd hm
    rcases List.mem_cons.1 hm with rfl | hm
    · exact h1 hd
    · exact h2 d hd hm
  | escaped h1 h2 _ =>
    exact ⟨[], _, _, rfl, rfl, by simp, .escaped h1 h2, .inr ⟨_, _, rfl, by decide⟩, by rintro ⟨c, r, h, h'⟩; cases h; exact absurd (by decide) h'⟩
  | backslash h1 h2 h3 _ =>
    exact ⟨[], _, _, rfl, rfl, by simp, .backslash h1 h2 h3, .inr ⟨_, _, rfl, by decide⟩, by rintro ⟨c, r, h, h'⟩; cases h; exact absurd (by decide) h'⟩
  | @param q w is p h1 h2 _ =>
    obtain ⟨r, rfl⟩ := h1.starts
    exact ⟨[], _, _, rfl, rfl, by simp, .param h1 h2, .inr ⟨_, _, rfl, by decide⟩, by rintro ⟨c, r, h, h'⟩; cases h; exact absurd (by decide) h'⟩

theorem Spec.WritesParam.extend {q : Parameter Str} {w s t : Str} (h : WritesParam cc q w s)
    (ht : NameStop cc t) : WritesParam cc q w (s ++ t) := by
  cases h with
  | display h1 h2 =>
    refine .display h1 fun c hc => ?_
    cases s with
    | nil => exact digit_name (ht c hc)
    | cons d s => exact h2 c hc
  | var h1 h2 =>
    refine .var h1 fun c hc => ?_
    cases s with
    | nil => exact ht c hc
    | cons d s => exact h2 c hc

theorem dquote_stop (hs : cc.Sane) (rest : Str) : NameStop cc ('"' :: rest) := by
  rintro c hc
  cases hc
  rw [← Bool.not_eq_true]
  exact fun h => (hs.plain h).2.1 ⟨_, show (['"'], Token.DoubleQuote) ∈ operators by decide, rfl⟩

/-- The tokens of text. -/
theorem dq_plain {s : Str} (h : ∀ d ∈ dqChars, d ∉ s) {t : Token} (ht : t ∈ lex cc s) : dqActive t = false := by
  have hc := lex_chars ht
  have no : ∀ {d}, d ∈ t.asStr → d ∈ dqChars → False := fun h1 h2 => h _ h2 (hc _ h1)
  cases t with
  | Dollar => exact (no (d := '$') (by decide) (by decide)).elim
  | Backtick => exact (no (d := '`') (by decide) (by decide)).elim
  | DoubleQuote => exact (no (d := '"') (by decide) (by decide)).elim
  | Backslash => exact (no (d := '\\') (by decide) (by decide)).elim
  | ParamPositional p => exact (no (d := '$') (by cases p <;> decide) (by decide)).elim
  | _ => rfl

/-- Reading the tokens of text. -/
theorem interp_plain {u : List Token} {ps} (hu : ∀ t ∈ u, dqActive t = false) :
    ∃ ps', psItems ps' = quotedItems (concatTokens u) ++ psItems ps ∧ ∀ {l r : List Token} {b b' : B.State},
      Reads (.interpParts (some .DoubleQuote)) b l ps r b' →
      Reads (.interpParts (some .DoubleQuote)) b (u ++ l) ps' r b' := by
  induction u with
  | nil => exact ⟨ps, by simp [concatTokens, quotedItems], fun h => h⟩
  | cons t u ih =>
    obtain ⟨ps', h2, h1⟩ := ih (fun t ht => hu t (by simp [ht]))
    have ht := hu t (by simp)
    refine ⟨.inl t.asStr :: ps', ?_, fun h => .interpText ?_ ?_ ?_ (h1 h)⟩
    · rw [concatTokens_cons, psItems, h2]; simp [quotedItems]
    · rintro e; cases e; simp [dqActive] at ht
    · rintro h; simp at h; rcases h with rfl | rfl | rfl <;> simp [dqActive] at ht
    · rintro p rfl; simp [dqActive] at ht

/-- Reading what is between double quotes. -/
theorem dq_reads (hs : cc.Sane) (b : B.State) : ∀ (n : Nat) {is : List Item} {p : Str}, p.length ≤ n →
    DqWritten cc is p → ∃ ps, psItems ps = is ∧ ∀ rest,
      Reads (.interpParts (some .DoubleQuote)) b (lex cc (p ++ '"' :: rest)) ps (lex cc rest) b := by
  intro n
  induction n with
  | zero =>
    intro is p hl h
    obtain rfl : p = [] := by simpa using hl
    generalize e : ([] : Str) = p0 at h
    cases h with
    | nil => exact ⟨[], rfl, fun rest => by rw [List.nil_append, lex_dquote]; exact .interpEnd⟩
    | param h1 _ =>
      obtain ⟨r, rfl⟩ := (param_reads (B := B) hs h1 b).2
      cases e
    | _ => cases e
  | succ n ih =>
    intro is p hl h
    by_cases hb : ∃ c r, p = c :: r ∧ c ∉ dqChars
    · obtain ⟨s, js, p', rfl, rfl, h1, h2, h3, h4⟩ := dq_split h
      have hpos := List.length_pos_of_ne_nil (h4 hb)
      rw [List.length_append] at hl
      obtain ⟨ps, g2, g1⟩ := ih (by omega) h2
      obtain ⟨ps', g4, g3⟩ := interp_plain (B := B) (ps := ps) (u := lex cc s) (fun t ht => dq_plain h1 ht)
      refine ⟨ps', by rw [g4, C01_concat_tokens, g2], fun rest => ?_⟩
      obtain ⟨c, r, h5, h6⟩ : ∃ c r, p' ++ '"' :: rest = c :: r ∧ c ∈ dqChars := by
        rcases h3 with rfl | ⟨c, r, rfl, hc⟩
        · exact ⟨_, _, rfl, by decide⟩
        · exact ⟨_, _, rfl, hc⟩
      rw [List.append_assoc, h5, lex_breaker hs s c r (h1 _ (by decide)) (by have key : ∀ c ∈ dqChars, c ∈ breakers := by decide
                                                                             exact key _ h6), ← h5]
      exact g3 (g1 rest)
    · cases h with
      | nil => exact ⟨[], rfl, fun rest => by rw [List.nil_append, lex_dquote]; exact .interpEnd⟩
      | char h1 _ => exact absurd ⟨_, _, rfl, h1⟩ hb
      | @escaped c is p h1 h2 =>
        obtain ⟨ps, g2, g1⟩ := ih (by simp at hl; omega) h2
        obtain ⟨t, htok, hstr, hmem⟩ := lex_special (cc := cc) c h1
        refine ⟨.inr (.Escaped t.asStr) :: ps, by rw [psItems, g2, hstr]; rfl, fun rest => ?_⟩
        · rw [List.cons_append, List.cons_append, C03_escape_protects_one, htok]
          exact .interpEscaped (by simp) (.inl hmem) (g1 rest)
      | @backslash c is p h1 h2 h3 =>
        obtain ⟨ps, g2, g1⟩ := ih (by simp at hl; omega) h3
        have hstr := single_asStr (lexSingle_spec cc c)
        generalize ht : lexSingle cc c = t at hstr
        have no : ∀ {k : Token} {d : Char}, k.asStr = [d] → d ∈ dqChars ∨ d = '\n' → t ≠ k := by
          rintro k d e1 e2 rfl
          rw [hstr] at e1
          cases e1
          exact e2.elim h1 h2
        have hq : t ∉ [Token.Dollar, .Backtick, .DoubleQuote, .Backslash, .Newline] := by
          simp only [List.mem_cons, List.not_mem_nil, or_false, not_or]
          exact ⟨no (d := '$') rfl (.inl (by decide)), no (d := '`') rfl (.inl (by decide)), no (d := '"') rfl (.inl (by decide)),
            no (d := '\\') rfl (.inl (by decide)), no (d := '\n') rfl (.inr rfl)⟩
        have hpos : ∀ p, t ≠ .ParamPositional p := by
          rintro p rfl
          cases p <;> cases hstr
        have hq' := hq
        simp only [List.mem_cons, List.not_mem_nil, or_false, not_or] at hq'
        refine ⟨.inl Token.Backslash.asStr :: .inl t.asStr :: ps, by rw [psItems, psItems, g2, hstr]; rfl, fun rest => ?_⟩
        · rw [List.cons_append, List.cons_append, C03_escape_protects_one, lex_single, ht]
          refine .interpBackslash (by simp) ?_ (by simp) (.interpText (t := t) ?_ ?_ hpos (g1 rest))
          · rintro t' l' e
            cases e
            exact ⟨hq, fun e => hq'.2.2.1 (by injection e with e; exact e.symm)⟩
          · exact fun e => hq'.2.2.1 (by injection e with e; exact e.symm)
          · simp only [List.mem_cons, List.not_mem_nil, or_false, not_or]
            exact ⟨hq'.1, hq'.2.1, hq'.2.2.2.1⟩
      | @param q w is p h1 h2 =>
        obtain ⟨r, rfl⟩ := h1.starts
        obtain ⟨ps, g2, g1⟩ := ih (by simp at hl; omega) h2
        refine ⟨.inr (.Param q) :: ps, by rw [psItems, g2]; rfl, fun rest => ?_⟩
        have h3 := h1.extend (dquote_stop hs rest)
        obtain ⟨g3, -⟩ := param_reads (B := B) hs h3 b
        rw [List.append_assoc]
        refine .interpParam ?_ g3 (g1 rest)
        intro t l' e
        obtain ⟨t', l'', e', ht'⟩ := g3.param_head
        rw [e] at e'
        cases e'
        rintro e2
        cases e2
        simp [Token.startsParam] at ht'

/-- Unquoted text up to what interrupts it. -/
theorem bare_split {is : List Item} {p : Str} (h : Written cc is p) :
    ∃ s js p', is = s.map bareItem ++ js ∧ p = s ++ p' ∧ (∀ c ∈ s, Bare cc c) ∧ Written cc js p' ∧
      (p' = [] ∨ ∃ c r, p' = c :: r ∧ c ∈ "\\'\"$".toList) ∧ ((∃ c r, p = c :: r ∧ Bare cc c) → s ≠ []) := by
  have no : ∀ {c}, c ∈ "\\'\"$".toList → ¬ Bare cc c := by
    have : ∀ c ∈ "\\'\"$".toList, c ∈ "\n;&|<>()'\"`\\$".toList := by decide
    intro c h1 h2
    exact h2.2 (this _ h1)
  induction h with
  | nil => exact ⟨[], [], [], rfl, rfl, by simp, .nil, .inl rfl, by rintro ⟨c, r, h, -⟩; cases h⟩
  | bare h1 _ ih =>
    obtain ⟨s, js, p', rfl, rfl, h2, h3, h4, -⟩ := ih
    refine ⟨_ :: s, js, p', rfl, rfl, ?_, h3, h4, by simp⟩
    intro x hx
    rcases List.mem_cons.1 hx with rfl | hx
    · exact h1
    · exact h2 x hx
  | escaped h1 h2 _ =>
    exact ⟨[], _, _, rfl, rfl, by simp, .escaped h1 h2, .inr ⟨_, _, rfl, by decide⟩, by rintro ⟨c, r, h, h'⟩; cases h; exact absurd h' (no (by decide))⟩
  | single h1 h2 _ =>
    exact ⟨[], _, _, rfl, rfl, by simp, .single h1 h2, .inr ⟨_, _, rfl, by decide⟩, by rintro ⟨c, r, h, h'⟩; cases h; exact absurd h' (no (by decide))⟩
  | double h1 h2 _ =>
    exact ⟨[], _, _, rfl, rfl, by simp, .double h1 h2, .inr ⟨_, _, rfl, by decide⟩, by rintro ⟨c, r, h, h'⟩; cases h; exact absurd h' (no (by decide))⟩
  | @param q w is p h1 h2 _ =>

    obtain ⟨r, rfl⟩ := h1.starts
    exact ⟨[], _, _, rfl, rfl, by simp, .param h1 h2, .inr ⟨_, _, rfl, by decide⟩, by rintro ⟨c, r, h, h'⟩; cases h; exact absurd h' (no (by decide))⟩

/-- The tokens of unquoted text are parts of a word. -/
theorem bare_piece (hs : cc.Sane) {p : Str} (hp : ∀ c ∈ p, Bare cc c) {t : Token} (ht : t ∈ lex cc p) :
    ∃ w : WordKind B.Command, kpItems w = t.asStr.map bareItem ∧ ∀ r (b : B.State), Reads .piece b (t :: r) w r b := by
  have hc := fun c hc => hp c (lex_chars ht c hc)
  have hsh := C02_token_shapes cc p t ht
  have plain : ∀ s : Str, (∀ c ∈ s, Plain cc c) → s.map (fun c => Item.chr c false) = s.map bareItem := by
    intro s h
    refine List.map_congr_left fun c hc => ?_
    have : ∀ c ∈ activeChars, ∃ p ∈ operators, p.1.head? = some c := by decide
    rw [bareItem, if_neg fun hm => (h c hc).2.1 (this c hm)]
  have fixed : ∀ p ∈ operators, (∀ c ∈ p.1, c ∉ "\n;&|<>()'\"`\\$".toList) →
      (p.2 ∈ literalTokens ∧ p.2.asStr.map bareItem = p.2.asStr.map (fun c => .chr c false)) ∨
      p.2 ∈ [Token.Star, .Question, .Tilde, .SquareOpen, .SquareClose, .Colon] := by decide
  by_cases hb : t = .Backslash
  · subst hb; exact absurd (by decide) (hc '\\' (by decide)).2
  by_cases hw : ∃ w, t = .Whitespace w
  · obtain ⟨w, rfl⟩ := hw
    obtain ⟨c, w, rfl⟩ := List.exists_cons_of_ne_nil hsh.1
    have h1 := (hsh.2 c (by simp)).1
    rw [(hc c (by simp [Token.asStr])).1] at h1
    cases h1
  by_cases hn : ∃ w, t = .Name w
  · obtain ⟨w, rfl⟩ := hn
    refine ⟨.Simple (.Literal w), plain w fun c hm => ?_, fun _ _ => .name⟩
    obtain ⟨d, r', e, h1, h2⟩ := hsh
    subst e
    have : cc.nameChar c = true := by
      rcases List.mem_cons.1 hm with rfl | hm
      · rcases h1 with rfl | h1 <;> simp [CharClass.nameChar, CharClass.nameStart, *]
      · rcases h2 c hm with rfl | h2 | h2 <;> simp [CharClass.nameChar, CharClass.nameStart, isDigit, *]
    have := hs.plain this
    exact ⟨this.1, this.2.1, this.2.2⟩
  by_cases hl : ∃ w, t = .Literal w
  · obtain ⟨w, rfl⟩ := hl
    refine ⟨.Simple (.Literal w), plain w fun c hm => ?_, fun _ _ => .text⟩
    obtain ⟨d, r', e, h1, h2⟩ := hsh
    exact ⟨(h2 c hm).2.1, (h2 c hm).2.2, (h2 c hm).1⟩
  have : (t.asStr, t) ∈ operators := by
    cases t <;> first
      | (rcases hsh with hsh | hsh <;> first | exact hsh | exact absurd hsh hb)
      | exact hsh | exact absurd ⟨_, rfl⟩ hw | exact absurd ⟨_, rfl⟩ hn | exact absurd ⟨_, rfl⟩ hl
  rcases fixed _ this (fun c h => (hc c h).2) with h | h
  · exact ⟨.Simple (.Literal t.asStr), h.2.symm, fun _ _ => .literal h.1⟩
  · simp only [List.mem_cons, List.not_mem_nil, or_false] at h
    rcases h with h | h | h | h | h | h <;> subst h
    · exact ⟨.Simple .Star, rfl, fun _ _ => .special (by simp [specialTokens])⟩
    · exact ⟨.Simple .Question, rfl, fun _ _ => .special (by simp [specialTokens])⟩
    · exact ⟨.Simple .Tilde, rfl, fun _ _ => .special (by simp [specialTokens])⟩
    · exact ⟨.Simple .SquareOpen, rfl, fun _ _ => .special (by simp [specialTokens])⟩
    · exact ⟨.Simple .SquareClose, rfl, fun _ _ => .special (by simp [specialTokens])⟩
    · exact ⟨.Simple .Colon, rfl, fun _ _ => .special (by simp [specialTokens])⟩

theorem bare_pieces {u : List Token} {ws : List (WordKind B.Command)}
    (hu : ∀ t ∈ u, ∃ w : WordKind B.Command, kpItems w = t.asStr.map bareItem ∧ ∀ r (b : B.State), Reads .piece b (t :: r) w r b) :
    ∃ ws' : List (WordKind B.Command), ws'.flatMap kpItems = (concatTokens u).map bareItem ++ ws.flatMap kpItems ∧ (u ≠ [] → ws' ≠ []) ∧
      ∀ {l r : List Token} {b b' : B.State}, Reads (.pieces none) b l ws r b' → Reads (.pieces none) b (u ++ l) ws' r b' := by
  induction u with
  | nil => exact ⟨ws, by simp [concatTokens], by simp, fun h => h⟩
  | cons t u ih =>
    obtain ⟨ws', h2, -, h1⟩ := ih (fun t ht => hu t (by simp [ht]))
    obtain ⟨w, h4, h3⟩ := hu t (by simp)
    refine ⟨w :: ws', ?_, by simp, fun h => .consPiece (by simp) (h3 _ _) (h1 h)⟩
    rw [List.flatMap_cons, h4, h2, concatTokens_cons]; simp

/-- Reading a word. -/
theorem written_reads (hs : cc.Sane) (b : B.State) :
    ∀ (n : Nat) {is : List Item} {p : Str}, p.length ≤ n → Written cc is p →
    ∃ ws : List (WordKind B.Command), ws.flatMap kpItems = is ∧ (p ≠ [] → ws ≠ []) ∧ ∀ rest, Gram.EndsWord (lex cc rest) →
      Reads (.pieces none) b (lex cc (p ++ rest)) ws (lex cc rest) b := by
  intro n
  induction n with
  | zero =>
    intro is p hl h
    obtain rfl : p = [] := by simpa using hl
    generalize e : ([] : Str) = p0 at h
    cases h with
    | nil => exact ⟨[], rfl, by simp, fun rest hr => .endWord hr⟩
    | param h1 _ =>
      obtain ⟨r, rfl⟩ := h1.starts
      cases e
    | _ => cases e
  | succ n ih =>
    intro is p hl h
    by_cases hb : ∃ c r, p = c :: r ∧ Bare cc c
    · obtain ⟨s, js, p', rfl, rfl, h1, h2, h3, h4⟩ := bare_split h
      have hpos := List.length_pos_of_ne_nil (h4 hb)
      rw [List.length_append] at hl
      obtain ⟨ws, g2, -, g1⟩ := ih (by omega) h2
      obtain ⟨ws', g4, g5, g3⟩ := bare_pieces (B := B) (ws := ws) (u := lex cc s) (fun t ht => bare_piece hs h1 ht)
      rw [C01_concat_tokens, g2] at g4
      refine ⟨ws', g4, fun _ => g5 ?_, fun rest hr => ?_⟩
      · intro e
        have := C01_concat_tokens cc s
        rw [e] at this
        exact h4 hb this.symm
      · have g3 := g3 (g1 rest hr)
        rw [List.append_assoc]
        cases hq : p' ++ rest with
        | nil => rw [hq, lex_empty, List.append_nil] at g3; rw [List.append_nil]; exact g3
        | cons c r =>
          rw [lex_bare s h1 c r ?_, ← hq]
          · exact g3
          rcases h3 with rfl | ⟨c', r', rfl, hc⟩
          · exact head_not_plain hr hq
          · cases hq
            exact breaker_notPlain (by have key : ∀ c ∈ "\\'\"$".toList, c ∈ breakers := by decide
                                       exact key _ hc)
    · cases h with
      | nil => exact ⟨[], rfl, by simp, fun rest hr => .endWord hr⟩
      | bare h1 _ => exact absurd ⟨_, _, rfl, h1⟩ hb
      | @escaped c is p h1 h2 =>
        obtain ⟨ws, g2, -, g1⟩ := ih (by simp at hl; omega) h2
        have hstr := single_asStr (lexSingle_spec cc c)
        refine ⟨.Simple (.Escaped (lexSingle cc c).asStr) :: ws, ?_, by simp, fun rest hr => ?_⟩
        · rw [List.flatMap_cons, g2, hstr]; rfl
        · rw [List.cons_append, List.cons_append, C03_escape_protects_one, lex_single]
          refine .consPiece (by simp) (.escaped ?_) (g1 rest hr)
          intro e
          rw [e] at hstr
          cases hstr
          exact h1 rfl
      | @single s is p h1 h2 =>
        simp only [List.length_cons, List.length_append] at hl
        obtain ⟨ws, g2, -, g1⟩ := ih (by omega) h2
        refine ⟨.SingleQuoted s :: ws, ?_, by simp, fun rest hr => ?_⟩
        · rw [List.flatMap_cons, g2]; rfl
        · obtain ⟨u, hu1, hu2, hu3⟩ := lex_to_quote hs (p ++ rest) _ s (Nat.le_refl _) h1
          simp only [List.cons_append, List.append_assoc]
          rw [lex_quote hs, hu3, ← hu2]
          exact .consPiece (by simp) (.singleQuoted hu1) (g1 rest hr)
      | @double js s is p h1 h2 =>
        simp only [List.length_cons, List.length_append] at hl
        obtain ⟨ws, g2, -, g1⟩ := ih (by omega) h2
        obtain ⟨ps, g4, g3⟩ := dq_reads (B := B) hs b _ (Nat.le_refl _) h1
        refine ⟨.DoubleQuoted (gather [] ps) :: ws, ?_, by simp, fun rest hr => ?_⟩
        · rw [List.flatMap_cons, g2, kpItems, gather_items, g4]; rfl
        · simp only [List.cons_append, List.append_assoc]
          rw [lex_dquote]
          exact .consPiece (by simp) (.doubleQuoted (.interp (g3 _))) (g1 rest hr)
      | @param q w is p h1 h2 =>
        obtain ⟨r, rfl⟩ := h1.starts
        obtain ⟨ws, g2, -, g1⟩ := ih (by simp at hl; omega) h2
        refine ⟨.Simple (.Param q) :: ws, by rw [List.flatMap_cons, g2]; rfl, by simp, fun rest hr => ?_⟩
        have h3 := h1.extend (head_not_name hs hr)
        rw [List.append_assoc]
        exact .consPiece (by simp) (.pieceParam (param_reads (B := B) hs h3 b).1) (g1 rest hr)

end
end Conch
