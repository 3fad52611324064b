import Verif.PropsTick
import Verif.PropsWritten
import Verif.AlikeKind
import Verif.PropsEmbed
import Verif.PropsLines
import Verif.RoundWord
/-!
# C66: words that mix quotes, escapes, parameters, scripts and arithmetic
-/
namespace Conch
open Spec Gram

/-! ## Specification -/

/-- What a word consists of: characters and parameters, each quoted or not (`Spec.Item`), substituted scripts, arithmetic
expressions (or none, as in `$(( ))`) and lengths of parameters, quoted or not. -/
inductive Spec.Bit
  | item (i : Item)
  | script (cs : List SCommand) (quoted : Bool)
  | arith (a : Option DefaultArithmetic) (quoted : Bool)
  | len (p : Parameter Str) (quoted : Bool)

section
variable (cc : CharClass)

/-- The ways of writing substitutions. Scripts: `$(…)` around a script, and backticks around a text that is written as
in C55. Arithmetic: `$((…))` around the tokens of an expression (C22) with blanks before and after them, or around
blanks alone. Lengths: `${#…}` around a parameter. -/
inductive Spec.SubstText : (Bool → Bit) → Str → Prop
  | dollar {p cs} : Whole cc p cs → p.head? ≠ some '(' → SubstText (.script cs) (substText p)
  | ticks {t p cs} : Ticked t p → Spans '`' p → ParsesTo cc t cs → SubstText (.script cs) (tickText p)
  | arith {p bs t u es a} : lex cc p = bs ++ (t :: u) ++ es → Gram.Blanks bs → Gram.Blanks es →
      (∀ w, t ≠ .Whitespace w) → t ≠ .Backslash → t ≠ .ParenClose → Expr .munch .seq (anywhere (t :: u)) a →
      SubstText (.arith (some a)) ("$((".toList ++ p ++ "))".toList)
  | noArith {p} : Gram.Blanks (lex cc p) → SubstText (.arith none) ("$((".toList ++ p ++ "))".toList)
  | len {p} : ValidParam cc p → SubstText (.len p) ("${#".toList ++ paramText p ++ ['}'])

/-- `DqWoven cc bs p`: between double quotes, `p` is a way of writing `bs`. -/
inductive Spec.DqWoven : List Bit → Str → Prop
  | text {is p} : DqWritten cc is p → DqWoven (is.map .item) p
  | subst {is p f w ks r} : DqWritten cc is p → SubstText cc f w → DqWoven ks r →
      DqWoven (is.map .item ++ f true :: ks) (p ++ (w ++ r))

/-- `Woven cc bs p`: `p` is a way of writing the word `bs`. -/
inductive Spec.Woven : List Bit → Str → Prop
  | text {is p} : Written cc is p → Woven (is.map .item) p
  | subst {is p f w ks r} : Written cc is p → SubstText cc f w → Woven ks r →
      Woven (is.map .item ++ f false :: ks) (p ++ (w ++ r))
  | double {is p js s ks r} : Written cc is p → DqWoven cc js s → Woven ks r →
      Woven (is.map .item ++ (js ++ ks)) (p ++ '"' :: (s ++ '"' :: r))

end

/-- The bits of a fragment of a word; `q` says whether it is in double quotes. -/
def Spec.simpleBits {W : Type} (q : Bool) :
    SimpleWord Str (Parameter Str) (ParameterSubstitution (Parameter Str) W SCommand (Arithmetic Str)) → List Bit
  | .Subst (.Command cs) => [.script cs q]
  | .Subst (.Arith a) => [.arith a q]
  | .Subst (.Len p) => [.len p q]
  | s => (simpleItems q s).map .item

/-- The bits of a part of a word. -/
def Spec.partBits {W : Type} :
    Word Str (SimpleWord Str (Parameter Str) (ParameterSubstitution (Parameter Str) W SCommand (Arithmetic Str))) → List Bit
  | .Simple s => simpleBits false s
  | .SingleQuoted s => (quotedItems s).map .item
  | .DoubleQuoted ss => ss.flatMap (simpleBits true)

/-- The bits of a word. -/
def Spec.wordBits : TopLevelWord Str → List Bit
  | .mk (.Single w) => partBits w
  | .mk (.Concat ws) => ws.flatMap partBits

/-! ## The words given to the builder -/

def ksBits (q : Bool) : SimpleWordKind SCommand → List Bit
  | .Subst (.Command g) => [.script g.commands q]
  | .Subst (.Arith a) => [.arith a q]
  | .Subst (.Len p) => [.len p q]
  | .CommandSubst g => [.script g.commands q]
  | s => (ksItems q s).map .item

def kpBits : WordKind SCommand → List Bit
  | .Simple s => ksBits false s
  | .SingleQuoted s => (quotedItems s).map .item
  | .DoubleQuoted ss => ss.flatMap (ksBits true)

def kBits (k : ComplexWordKind SCommand) : List Bit := (parts k).flatMap kpBits

theorem ksBits_joined {q : Bool} {v v' : List (SimpleWordKind SCommand)} (h : Joined JoinSimple v v') :
    v'.flatMap (ksBits q) = v.flatMap (ksBits q) := by
  refine joined_atoms ?_ h
  rintro _ _ _ ⟨a, b⟩
  simp [ksBits, ksItems]

theorem kBits_compress (k : ComplexWordKind SCommand) : kBits (compress k) = kBits k := by
  rcases C32_only_joins_neighbours k with h | ⟨v, v', h1, h2, h⟩
  · refine joined_atoms ?_ h
    intro a b c hj
    cases hj with
    | literal a b => simp [kpBits, ksBits, ksItems]
    | singleQuoted a b => simp [kpBits, quotedItems]
    | doubleQuoted hj => simp only [kpBits, ksBits_joined hj]; simp
  · rw [h2, h1]
    simp only [kBits, parts, List.flatMap_cons, List.flatMap_nil, kpBits, ksBits_joined h]

theorem kBits_wordWith (ws : List (WordKind SCommand)) : kBits (wordWith ws) = ws.flatMap kpBits := by
  rcases ws with _ | ⟨_, _ | _⟩ <;> rfl

theorem simpleBits_of (q : Bool) (s : SimpleWordKind SCommand) :
    simpleBits q (stringCore.simpleOf s) = ksBits q s := by
  cases s with
  | Param p => exact congrArg (fun p => [Bit.item (Item.param p q)]) (mapParam_self p)
  | Subst s =>
    cases s with
    | Arith a =>
      cases a with
      | none => rfl
      | some a => exact congrArg (fun a => [Bit.arith (some a) q]) (mapArith_id a)
    | Len p => exact congrArg (fun p => [Bit.len p q]) (mapParam_self p)
    | _ => rfl
  | _ => rfl

theorem flatMap_simpleBits (q : Bool) (v : List (SimpleWordKind SCommand)) :
    (v.map stringCore.simpleOf).flatMap (simpleBits q) = v.flatMap (ksBits q) := by
  induction v with
  | nil => rfl
  | cons a v ih => exact congr (congrArg _ (simpleBits_of q a)) ih

theorem partBits_of (s : WordKind SCommand) : partBits (stringCore.partOf s) = kpBits s := by
  cases s with
  | Simple s => exact simpleBits_of false s
  | SingleQuoted => rfl
  | DoubleQuoted v => exact flatMap_simpleBits true v

theorem wordBits_word (k : ComplexWordKind SCommand) : wordBits (stringCore.word k) = kBits k := by
  rw [C32_default_builder_compresses, ← kBits_compress k]
  generalize compress k = k
  cases k with
  | Single s =>
    have : kBits (.Single s) = kpBits s := by simp [kBits, parts]
    rw [this]; exact partBits_of s
  | Concat v =>
    show (v.map stringCore.partOf).flatMap partBits = v.flatMap kpBits
    induction v with
    | nil => rfl
    | cons a v ih => exact congr (congrArg _ (partBits_of a)) ih

/-! ## Items are bits -/

theorem ksBits_items {q : Bool} {s : SimpleWordKind SCommand} (h : Item.other ∉ ksItems q s) :
    ksBits q s = (ksItems q s).map .item := by
  cases s with
  | Subst s => simp [ksItems] at h
  | CommandSubst s => simp [ksItems] at h
  | _ => rfl

theorem kpBits_items {w : WordKind SCommand} (h : Item.other ∉ kpItems w) : kpBits w = (kpItems w).map .item := by
  cases w with
  | Simple s => exact ksBits_items h
  | SingleQuoted => rfl
  | DoubleQuoted v =>
    show v.flatMap _ = (v.flatMap _).map _
    rw [List.map_flatMap]
    refine List.flatMap_congr fun s hs => ksBits_items fun h' => h ?_
    exact List.mem_flatMap.2 ⟨s, hs, h'⟩

theorem flatMap_items {ws : List (WordKind SCommand)} (h : Item.other ∉ ws.flatMap kpItems) :
    ws.flatMap kpBits = (ws.flatMap kpItems).map .item := by
  rw [List.map_flatMap]
  exact List.flatMap_congr fun s hs => kpBits_items fun h' => h (List.mem_flatMap.2 ⟨s, hs, h'⟩)

def psBits : List (Str ⊕ SimpleWordKind SCommand) → List Bit
  | [] => []
  | .inl s :: ps => (quotedItems s).map .item ++ psBits ps
  | .inr w :: ps => ksBits true w ++ psBits ps

theorem gather_bits (ps : List (Str ⊕ SimpleWordKind SCommand)) : ∀ s,
    (gather s ps).flatMap (ksBits true) = (quotedItems s).map .item ++ psBits ps := by
  have text : ∀ s : Str, (textOf s : List (SimpleWordKind SCommand)).flatMap (ksBits true) = (quotedItems s).map .item := by
    intro s
    cases s with
    | nil => rfl
    | cons c s => simp [textOf, ksBits, ksItems, quotedItems]
  induction ps with
  | nil => intro s; simp [gather, psBits, text]
  | cons p ps ih =>
    intro s
    cases p with
    | inl t => rw [gather, ih, psBits]; simp [quotedItems]
    | inr w => rw [gather, psBits, List.flatMap_append, text, List.flatMap_cons, ih]; simp [quotedItems]

theorem psBits_append (ps qs : List (Str ⊕ SimpleWordKind SCommand)) : psBits (ps ++ qs) = psBits ps ++ psBits qs := by
  induction ps with
  | nil => rfl
  | cons p ps ih => cases p <;> simp [psBits, ih]

theorem psBits_items {ps : List (Str ⊕ SimpleWordKind SCommand)} (h : Item.other ∉ psItems ps) : psBits ps = (psItems ps).map .item := by
  induction ps with
  | nil => rfl
  | cons p ps ih =>
    cases p with
    | inl s =>
      simp only [psItems, List.mem_append, not_or] at h
      rw [psBits, psItems, ih h.2]; simp
    | inr w =>
      simp only [psItems, List.mem_append, not_or] at h
      rw [psBits, psItems, ih h.2, ksBits_items h.1]; simp

theorem bareItem_other (c : Char) : bareItem c ≠ .other := by
  unfold bareItem
  split <;> simp

theorem dqWritten_other {cc : CharClass} {is : List Item} {p : Str} (h : DqWritten cc is p) : Item.other ∉ is := by
  induction h with
  | nil => simp
  | _ => simp [*]

theorem written_other {cc : CharClass} {is : List Item} {p : Str} (h : Written cc is p) : Item.other ∉ is := by
  induction h with
  | nil => simp
  | bare _ _ ih => simpa using ⟨(bareItem_other _).symm, ih⟩
  | escaped _ _ ih => simpa using ih
  | single _ _ ih => simpa [quotedItems] using ih
  | double h _ ih => simpa using ⟨dqWritten_other h, ih⟩
  | param _ _ ih => simpa using ih

/-! ## Reading -/

section
variable {cc : CharClass} {B : Builder} {b : B.State}

/-- What may follow a written text that is not at its end: nothing that goes on with a name or plain text. -/
def Stopper (cc : CharClass) (rest : Str) : Prop := NameStop cc rest ∧ ∀ c r, rest = c :: r → ¬ Plain cc c

theorem stopper_end (hs : cc.Sane) {rest : Str} (h : Gram.EndsWord (lex cc rest)) : Stopper cc rest :=
  ⟨head_not_name hs h, fun _ _ e => head_not_plain h e⟩

theorem stopper_op (hs : cc.Sane) {c : Char} (h : opStart c) (r : Str) : Stopper cc (c :: r) := by
  refine ⟨fun d hd => ?_, ?_⟩
  · cases hd
    rw [← Bool.not_eq_true]
    exact fun h' => (hs.plain h').2.1 h
  · rintro d r' e
    cases e
    exact fun h' => h'.2.1 h

theorem bare_pieces_prefix {u : List Token}
    (hu : ∀ t ∈ u, ∃ w : WordKind B.Command, kpItems w = t.asStr.map bareItem ∧ ∀ r (b : B.State), Reads .piece b (t :: r) w r b) :
    ∃ us : List (WordKind B.Command), us.flatMap kpItems = (concatTokens u).map bareItem ∧ (u ≠ [] → us ≠ []) ∧
      ∀ {vs : List (WordKind B.Command)} {l r : List Token} {b b' : B.State}, Reads (.pieces none) b l vs r b' →
        Reads (.pieces none) b (u ++ l) (us ++ vs) r b' := by
  induction u with
  | nil => exact ⟨[], by simp [concatTokens], by simp, fun h => h⟩
  | cons t u ih =>
    obtain ⟨us, h2, -, h1⟩ := ih (fun t ht => hu t (by simp [ht]))
    obtain ⟨w, h4, h3⟩ := hu t (by simp)
    refine ⟨w :: us, ?_, by simp, fun h => .consPiece (by simp) (h3 _ _) (h1 h)⟩
    rw [List.flatMap_cons, h4, h2, concatTokens_cons]; simp

theorem interp_plain_prefix {u : List Token} (hu : ∀ t ∈ u, dqActive t = false) :
    ∃ us : List (Str ⊕ SimpleWordKind B.Command), psItems us = quotedItems (concatTokens u) ∧
      ∀ {vs} {l r : List Token} {b b' : B.State}, Reads (.interpParts (some .DoubleQuote)) b l vs r b' →
        Reads (.interpParts (some .DoubleQuote)) b (u ++ l) (us ++ vs) r b' := by
  induction u with
  | nil => exact ⟨[], by simp [concatTokens, quotedItems, psItems], fun h => h⟩
  | cons t u ih =>
    obtain ⟨us, h2, h1⟩ := ih (fun t ht => hu t (by simp [ht]))
    have ht := hu t (by simp)
    refine ⟨.inl t.asStr :: us, ?_, fun h => .interpText ?_ ?_ ?_ (h1 h)⟩
    · rw [concatTokens_cons, psItems, h2]; simp [quotedItems]
    · rintro e; cases e; simp [dqActive] at ht
    · rintro h; simp at h; rcases h with rfl | rfl | rfl <;> simp [dqActive] at ht
    · rintro p rfl; simp [dqActive] at ht

/-- What may follow inside double quotes. -/
def DqStop (rest : Str) : Prop := ∃ c r, rest = c :: r ∧ c ∈ "\"$`".toList

theorem DqStop.op {rest : Str} (h : DqStop rest) : ∃ c r, rest = c :: r ∧ opStart c ∧ c ∈ dqChars := by
  obtain ⟨c, r, rfl, hc⟩ := h
  have : ∀ c ∈ "\"$`".toList, (∃ p ∈ operators, p.1.head? = some c) ∧ c ∈ dqChars := by decide
  exact ⟨c, r, rfl, this c hc⟩

/-- Reading what is written between double quotes, and what follows. -/
theorem dq_prefix (hs : cc.Sane) : ∀ (n : Nat) {is : List Item} {p : Str}, p.length ≤ n →
    DqWritten cc is p → ∃ us : List (Str ⊕ SimpleWordKind B.Command), psItems us = is ∧
      ∀ {vs} {rest : Str} {r : List Token} {b b' : B.State}, DqStop rest →
        Reads (.interpParts (some .DoubleQuote)) b (lex cc rest) vs r b' →
        Reads (.interpParts (some .DoubleQuote)) b (lex cc (p ++ rest)) (us ++ vs) r b' := by
  intro n
  induction n with
  | zero =>
    intro is p hl h
    obtain rfl : p = [] := by simpa using hl
    generalize e : ([] : Str) = p0 at h
    cases h with
    | nil => exact ⟨[], rfl, fun _ h => h⟩
    | param h1 _ =>
      obtain ⟨r, rfl⟩ := h1.starts
      cases e
    | _ => cases e
  | succ n ih =>
    intro is p hl h
    by_cases hb : ∃ c r, p = c :: r ∧ c ∉ dqChars
    · obtain ⟨s, js, p', rfl, rfl, h1, h2, h3, h4⟩ := dq_split h
      have hpos := List.length_pos_of_ne_nil (h4 hb)
      rw [List.length_append] at hl
      obtain ⟨ps, g2, g1⟩ := ih (by omega) h2
      obtain ⟨us, g4, g3⟩ := interp_plain_prefix (B := B) (u := lex cc s) (fun t ht => dq_plain h1 ht)
      have hap : ∀ xs ys : List (Str ⊕ SimpleWordKind B.Command), psItems (xs ++ ys) = psItems xs ++ psItems ys := by
        intro xs ys
        induction xs with
        | nil => rfl
        | cons x xs ih => cases x <;> simp [psItems, ih]
      refine ⟨us ++ ps, by rw [hap, g4, C01_concat_tokens, g2], ?_⟩
      intro vs rest r b b' hr hv
      obtain ⟨c, r, h5, h6⟩ : ∃ c r, p' ++ rest = c :: r ∧ c ∈ dqChars := by
        rcases h3 with rfl | ⟨c, r, rfl, hc⟩
        · obtain ⟨c, r, rfl, -, h⟩ := hr.op
          exact ⟨_, _, rfl, h⟩
        · exact ⟨_, _, rfl, hc⟩
      have key : ∀ c ∈ dqChars, c ∈ breakers := by decide
      rw [List.append_assoc, List.append_assoc, h5, lex_breaker hs s c r (h1 _ (by decide)) (key _ h6), ← h5]
      exact g3 (g1 hr hv)
    · cases h with
      | nil => exact ⟨[], rfl, fun _ h => h⟩
      | char h1 _ => exact absurd ⟨_, _, rfl, h1⟩ hb
      | @escaped c is p h1 h2 =>
        obtain ⟨ps, g2, g1⟩ := ih (by simp at hl; omega) h2
        obtain ⟨t, htok, hstr, hmem⟩ := lex_special (cc := cc) c h1
        refine ⟨.inr (.Escaped t.asStr) :: ps, by rw [psItems, g2, hstr]; rfl, fun hr hv => ?_⟩
        · rw [List.cons_append, List.cons_append, C03_escape_protects_one, htok]
          exact .interpEscaped (by simp) (.inl hmem) (g1 hr hv)
      | @backslash c is p h1 h2 h3 =>
        obtain ⟨ps, g2, g1⟩ := ih (by simp at hl; omega) h3
        have hstr := single_asStr (lexSingle_spec cc c)
        generalize ht : lexSingle cc c = t at hstr
        have no : ∀ {k : Token} {d : Char}, k.asStr = [d] → d ∈ dqChars ∨ d = '\n' → t ≠ k := by
          rintro k d e1 e2 rfl
          rw [hstr] at e1
          cases e1
          exact e2.elim h1 h2
        have hq : t ∉ [Token.Dollar, .Backtick, .DoubleQuote, .Backslash, .Newline] := by
          simp only [List.mem_cons, List.not_mem_nil, or_false, not_or]
          exact ⟨no (d := '$') rfl (.inl (by decide)), no (d := '`') rfl (.inl (by decide)), no (d := '"') rfl (.inl (by decide)),
            no (d := '\\') rfl (.inl (by decide)), no (d := '\n') rfl (.inr rfl)⟩
        have hpos : ∀ p, t ≠ .ParamPositional p := by
          rintro p rfl
          cases p <;> cases hstr
        have hq' := hq
        simp only [List.mem_cons, List.not_mem_nil, or_false, not_or] at hq'
        refine ⟨.inl Token.Backslash.asStr :: .inl t.asStr :: ps, by rw [psItems, psItems, g2, hstr]; rfl, fun hr hv => ?_⟩
        · rw [List.cons_append, List.cons_append, C03_escape_protects_one, lex_single, ht]
          refine .interpBackslash (by simp) ?_ (by simp) (.interpText (t := t) ?_ ?_ hpos (g1 hr hv))
          · rintro t' l' e
            cases e
            exact ⟨hq, fun e => hq'.2.2.1 (by injection e with e; exact e.symm)⟩
          · exact fun e => hq'.2.2.1 (by injection e with e; exact e.symm)
          · simp only [List.mem_cons, List.not_mem_nil, or_false, not_or]
            exact ⟨hq'.1, hq'.2.1, hq'.2.2.2.1⟩
      | @param q w is p h1 h2 =>
        obtain ⟨r, rfl⟩ := h1.starts
        obtain ⟨ps, g2, g1⟩ := ih (by simp at hl; omega) h2
        refine ⟨.inr (.Param q) :: ps, by rw [psItems, g2]; rfl, ?_⟩
        intro vs rest r b b' hr hv
        have hst : Stopper cc rest := by
          obtain ⟨c, r, rfl, h, -⟩ := hr.op
          exact stopper_op hs h r
        have h3 := h1.extend hst.1
        obtain ⟨g3, -⟩ := param_reads (B := B) hs h3 b
        rw [List.append_assoc]
        refine .interpParam ?_ g3 (g1 hr hv)
        intro t l' e
        obtain ⟨t', l'', e', ht'⟩ := g3.param_head
        rw [e] at e'
        cases e'
        rintro e2
        cases e2
        simp [Token.startsParam] at ht'

/-- Reading what is written, and what follows. -/
theorem written_prefix (hs : cc.Sane) :
    ∀ (n : Nat) {is : List Item} {p : Str}, p.length ≤ n → Written cc is p →
    ∃ us : List (WordKind B.Command), us.flatMap kpItems = is ∧ (p ≠ [] → us ≠ []) ∧
      ∀ {vs : List (WordKind B.Command)} {rest : Str} {r : List Token} {b b' : B.State}, Stopper cc rest →
        Reads (.pieces none) b (lex cc rest) vs r b' → Reads (.pieces none) b (lex cc (p ++ rest)) (us ++ vs) r b' := by
  intro n
  induction n with
  | zero =>
    intro is p hl h
    obtain rfl : p = [] := by simpa using hl
    generalize e : ([] : Str) = p0 at h
    cases h with
    | nil => exact ⟨[], rfl, by simp, fun _ h => h⟩
    | param h1 _ =>
      obtain ⟨r, rfl⟩ := h1.starts
      cases e
    | _ => cases e
  | succ n ih =>
    intro is p hl h
    by_cases hb : ∃ c r, p = c :: r ∧ Bare cc c
    · obtain ⟨s, js, p', rfl, rfl, h1, h2, h3, h4⟩ := bare_split h
      have hpos := List.length_pos_of_ne_nil (h4 hb)
      rw [List.length_append] at hl
      obtain ⟨ws, g2, -, g1⟩ := ih (by omega) h2
      obtain ⟨us, g4, g5, g3⟩ := bare_pieces_prefix (B := B) (u := lex cc s) (fun t ht => bare_piece hs h1 ht)
      rw [C01_concat_tokens] at g4
      refine ⟨us ++ ws, by rw [List.flatMap_append, g4, g2], fun _ e => ?_, ?_⟩
      · refine g5 ?_ (List.append_eq_nil_iff.1 e).1
        intro e
        have := C01_concat_tokens cc s
        rw [e] at this
        exact h4 hb this.symm
      · intro vs rest r b b' hr hv
        have g3 := g3 (g1 hr hv)
        rw [List.append_assoc, List.append_assoc]
        cases hq : p' ++ rest with
        | nil => rw [hq, lex_empty, List.append_nil] at g3; rw [List.append_nil]; exact g3
        | cons c r =>
          rw [lex_bare s h1 c r ?_, ← hq]
          · exact g3
          rcases h3 with rfl | ⟨c', r', rfl, hc⟩
          · exact hr.2 _ _ hq
          · cases hq
            exact breaker_notPlain (by have key : ∀ c ∈ "\\'\"$".toList, c ∈ breakers := by decide
                                       exact key _ hc)
    · cases h with
      | nil => exact ⟨[], rfl, by simp, fun _ h => h⟩
      | bare h1 _ => exact absurd ⟨_, _, rfl, h1⟩ hb
      | @escaped c is p h1 h2 =>
        obtain ⟨ws, g2, -, g1⟩ := ih (by simp at hl; omega) h2
        have hstr := single_asStr (lexSingle_spec cc c)
        refine ⟨.Simple (.Escaped (lexSingle cc c).asStr) :: ws, ?_, by simp, fun hr hv => ?_⟩
        · rw [List.flatMap_cons, g2, hstr]; rfl
        · rw [List.cons_append, List.cons_append, C03_escape_protects_one, lex_single]
          refine .consPiece (by simp) (.escaped ?_) (g1 hr hv)
          intro e
          rw [e] at hstr
          cases hstr
          exact h1 rfl
      | @single s is p h1 h2 =>
        simp only [List.length_cons, List.length_append] at hl
        obtain ⟨ws, g2, -, g1⟩ := ih (by omega) h2
        refine ⟨.SingleQuoted s :: ws, ?_, by simp, ?_⟩
        · rw [List.flatMap_cons, g2]; rfl
        · intro vs rest r b b' hr hv
          obtain ⟨u, hu1, hu2, hu3⟩ := lex_to_quote hs (p ++ rest) _ s (Nat.le_refl _) h1
          simp only [List.cons_append, List.append_assoc]
          rw [lex_quote hs, hu3, ← hu2]
          exact .consPiece (by simp) (.singleQuoted hu1) (g1 hr hv)
      | @double js s is p h1 h2 =>
        simp only [List.length_cons, List.length_append] at hl
        obtain ⟨ws, g2, -, g1⟩ := ih (by omega) h2
        obtain ⟨ps, g4, g3⟩ := dq_prefix (B := B) hs _ (Nat.le_refl _) h1
        refine ⟨.DoubleQuoted (gather [] ps) :: ws, ?_, by simp, ?_⟩
        · rw [List.flatMap_cons, g2, kpItems, gather_items, g4]; rfl
        · intro vs rest r b b' hr hv
          simp only [List.cons_append, List.append_assoc]
          rw [lex_dquote]
          refine .consPiece (by simp) (.doubleQuoted (.interp (r := lex cc (p ++ rest)) (b' := b) ?_)) (g1 hr hv)
          have := g3 (vs := []) (rest := '"' :: (p ++ rest)) (r := lex cc (p ++ rest)) (b := b) (b' := b) ⟨_, _, rfl, by decide⟩
            (by rw [lex_dquote]; exact .interpEnd)
          simpa using this
      | @param q w is p h1 h2 =>
        obtain ⟨r, rfl⟩ := h1.starts
        obtain ⟨ws, g2, -, g1⟩ := ih (by simp at hl; omega) h2
        refine ⟨.Simple (.Param q) :: ws, by rw [List.flatMap_cons, g2]; rfl, by simp, ?_⟩
        intro vs rest r b b' hr hv
        have h3 := h1.extend hr.1
        rw [List.append_assoc]
        exact .consPiece (by simp) (.pieceParam (param_reads (B := B) hs h3 b).1) (g1 hr hv)


theorem Spec.SubstText.start {f : Bool → Bit} {w : Str} (h : SubstText cc f w) :
    ∃ c r, w = c :: r ∧ c ∈ "$`".toList := by
  cases h with
  | ticks => exact ⟨_, _, rfl, by decide⟩
  | _ => exact ⟨_, _, rfl, by decide⟩

/-! ### Up to the comments at the end of substituted scripts -/

/-- The same fragment, but for comments at the end of a script. -/
inductive SSame : SimpleWordKind SCommand → SimpleWordKind SCommand → Prop
  | cmd {g h} : g.commands = h.commands → SSame (.CommandSubst g) (.CommandSubst h)
  | subst {g h} : g.commands = h.commands → SSame (.Subst (.Command g)) (.Subst (.Command h))
  | same {s} : SSame s s

inductive WSame : WordKind SCommand → WordKind SCommand → Prop
  | simple {s t} : SSame s t → WSame (.Simple s) (.Simple t)
  | double {v w} : List.Forall₂ SSame v w → WSame (.DoubleQuoted v) (.DoubleQuoted w)
  | same {s} : WSame s s

theorem forall2_self {α : Type} {R : α → α → Prop} (h : ∀ a, R a a) (l : List α) : List.Forall₂ R l l := by
  induction l with
  | nil => exact .nil
  | cons a l ih => exact .cons (h a) ih

theorem coalesceSimple_same (a b a' b' : SimpleWordKind SCommand) (ha : SSame a a') (hb : SSame b b') :
    (∃ c c', coalesceSimple a b = .ok c ∧ coalesceSimple a' b' = .ok c' ∧ SSame c c') ∨
      (coalesceSimple a b = .error (a, b) ∧ coalesceSimple a' b' = .error (a', b')) := by
  by_cases hl : (∃ x, a = .Literal x) ∧ ∃ y, b = .Literal y
  · obtain ⟨⟨x, rfl⟩, y, rfl⟩ := hl
    cases ha
    cases hb
    exact .inl ⟨_, _, rfl, rfl, .same⟩
  · right
    have key : ∀ a b : SimpleWordKind SCommand, ¬ ((∃ x, a = .Literal x) ∧ ∃ y, b = .Literal y) → coalesceSimple a b = .error (a, b) := by
      intro a b h
      cases a <;> first | rfl | (cases b <;> first | rfl | exact absurd ⟨⟨_, rfl⟩, _, rfl⟩ h)
    refine ⟨key _ _ hl, key _ _ ?_⟩
    rintro ⟨⟨x, rfl⟩, y, rfl⟩
    apply hl
    constructor
    · cases ha; exact ⟨_, rfl⟩
    · cases hb; exact ⟨_, rfl⟩

theorem WSame.cases' {a a' : WordKind SCommand} (h : WSame a a') :
    (∃ s t, a = .Simple s ∧ a' = .Simple t ∧ SSame s t) ∨ (∃ s, a = .SingleQuoted s ∧ a' = .SingleQuoted s) ∨
      ∃ v w, a = .DoubleQuoted v ∧ a' = .DoubleQuoted w ∧ List.Forall₂ SSame v w := by
  cases h with
  | simple h => exact .inl ⟨_, _, rfl, rfl, h⟩
  | double h => exact .inr (.inr ⟨_, _, rfl, rfl, h⟩)
  | same =>
    cases a with
    | Simple s => exact .inl ⟨_, _, rfl, rfl, .same⟩
    | SingleQuoted s => exact .inr (.inl ⟨_, rfl, rfl⟩)
    | DoubleQuoted v => exact .inr (.inr ⟨_, _, rfl, rfl, forall2_self (fun _ => .same) v⟩)

theorem coalesceWord_same (a b a' b' : WordKind SCommand) (ha : WSame a a') (hb : WSame b b') :
    (∃ c c', coalesceWord a b = .ok c ∧ coalesceWord a' b' = .ok c' ∧ WSame c c') ∨
      (coalesceWord a b = .error (a, b) ∧ coalesceWord a' b' = .error (a', b')) := by
  rcases ha.cases' with ⟨s, t, rfl, rfl, h1⟩ | ⟨s, rfl, rfl⟩ | ⟨v, w, rfl, rfl, h1⟩ <;>
    rcases hb.cases' with ⟨s', t', rfl, rfl, h2⟩ | ⟨s', rfl, rfl⟩ | ⟨v', w', rfl, rfl, h2⟩
  · rcases coalesceSimple_same _ _ _ _ h1 h2 with ⟨c, c', e1, e2, h⟩ | ⟨e1, e2⟩
    · exact .inl ⟨_, _, by simp only [coalesceWord, e1], by simp only [coalesceWord, e2], .simple h⟩
    · exact .inr ⟨by simp only [coalesceWord, e1], by simp only [coalesceWord, e2]⟩
  · exact .inr ⟨rfl, rfl⟩
  · exact .inr ⟨rfl, rfl⟩
  · exact .inr ⟨rfl, rfl⟩
  · exact .inl ⟨_, _, rfl, rfl, .same⟩
  · exact .inr ⟨rfl, rfl⟩
  · exact .inr ⟨rfl, rfl⟩
  · exact .inr ⟨rfl, rfl⟩
  · exact .inl ⟨_, _, rfl, rfl, .double (collect_rel coalesceSimple_same (forall2_app h1 h2))⟩

theorem SSame.eq {s t : SimpleWordKind SCommand} (h : SSame s t) : stringCore.simpleOf s = stringCore.simpleOf t := by
  cases h with
  | cmd h => exact congrArg (fun x => SimpleWord.Subst (ParameterSubstitution.Command x)) h
  | subst h => exact congrArg (fun x => SimpleWord.Subst (ParameterSubstitution.Command x)) h
  | same => rfl

theorem WSame.eq {s t : WordKind SCommand} (h : WSame s t) : stringCore.partOf s = stringCore.partOf t := by
  cases h with
  | simple h => exact congrArg Word.Simple h.eq
  | double h => exact congrArg Word.DoubleQuoted (forall2_map (fun _ _ h => h.eq) h)
  | same => rfl

/-- The comments do not show in the word. -/
theorem word_comments {us vs : List (WordKind SCommand)} (h : List.Forall₂ WSame us vs) :
    stringCore.word (wordWith us) = stringCore.word (wordWith vs) := by
  rw [C32_default_builder_compresses, C32_default_builder_compresses]
  have hc : ∀ {us vs : List (WordKind SCommand)}, List.Forall₂ WSame us vs →
      stringCore.complexOf (compress (.Concat us)) = stringCore.complexOf (compress (.Concat vs)) := by
    intro us vs h
    have := collect_rel coalesceWord_same h
    simp only [compress]
    generalize Coalesce.collect coalesceWord _ = v1 at this ⊢
    generalize Coalesce.collect coalesceWord _ = v2 at this ⊢
    cases this with
    | nil => rfl
    | cons h1 h2 =>
      cases h2 with
      | nil => exact congrArg ComplexWord.Single h1.eq
      | cons h2 h3 =>
        exact congrArg ComplexWord.Concat (forall2_map (fun _ _ h => h.eq) (.cons h1 (.cons h2 h3)))
  cases h with
  | nil => rfl
  | cons h1 h2 =>
    cases h2 with
    | cons h2 h3 => exact congrArg _ (hc (.cons h1 (.cons h2 h3)))
    | nil =>
      simp only [wordWith]
      congr 1
      rcases h1.cases' with ⟨s, t, rfl, rfl, h3⟩ | ⟨s, rfl, rfl⟩ | ⟨v, w, rfl, rfl, h3⟩
      · exact congrArg (fun x => ComplexWord.Single (Word.Simple x)) h3.eq
      · rfl
      · refine congrArg (fun x => ComplexWord.Single (Word.DoubleQuoted x)) ?_
        exact forall2_map (fun _ _ h => h.eq) (collect_rel coalesceSimple_same h3)

theorem skip_all {bs l : List Token} (hb : Gram.Blanks bs) (hl : Gram.NoBlank l) : Gram.Skip (bs ++ l) l := ⟨bs, rfl, hb, hl⟩

/-- The text of an arithmetic substitution, lexed. -/
theorem arith_lex (hs : cc.Sane) (p q : Str) : lex cc ("$((".toList ++ p ++ "))".toList ++ q) =
    .Dollar :: .ParenOpen :: .ParenOpen :: (lex cc p ++ .ParenClose :: .ParenClose :: lex cc q) := by
  have h1 : "$((".toList ++ p ++ "))".toList ++ q = '$' :: '(' :: '(' :: (p ++ ')' :: ')' :: q) := by simp
  have hc : ∀ r, lex cc (')' :: r) = .ParenClose :: lex cc r := fun r => lex_end hs .ParenClose r (by decide) (by decide)
  have h2 : lex cc (p ++ ')' :: ')' :: q) = lex cc p ++ .ParenClose :: .ParenClose :: lex cc q := by
    rw [(C65_separators hs ')').2 (by decide), List.append_assoc, hc, hc, lex_nil]; rfl
  rw [h1, lex_dollar hs (by intro c hc; cases hc; decide), open_paren hs, open_paren hs, h2]

/-- Reading a substitution, whatever follows. -/
theorem subst_reads (hs : cc.Sane) {f : Bool → Bit} {w : Str} (h : SubstText cc f w) :
    ∃ k : SimpleWordKind SCommand, (∀ q, ksBits q k = [f q]) ∧ ∀ rest : Str, ∃ k', SSame k k' ∧
      (RD .param (lex cc (w ++ rest)) k' (lex cc rest) ∨ RD .backtick (lex cc (w ++ rest)) k' (lex cc rest)) := by
  have hb1 : ∀ r, Gram.NoBlank (Token.ParenClose :: r) := fun r => by simp [Gram.NoBlank]
  cases h with
  | @arith p bs t u es a h1 h2 h3 h4 h5 h6 h7 =>
    refine ⟨.Subst (.Arith (some a)), fun _ => rfl, fun q => ⟨_, .same, .inl ?_⟩⟩
    rw [arith_lex hs, h1]
    have hn : Gram.NoBlank (t :: (u ++ (es ++ .ParenClose :: .ParenClose :: lex cc q))) :=
      ⟨fun w r e => h4 w (by injection e), fun r e => h5 (by injection e)⟩
    refine .arithmetic (l' := t :: (u ++ (es ++ .ParenClose :: .ParenClose :: lex cc q))) (u := t :: u)
      (l1 := es ++ .ParenClose :: .ParenClose :: lex cc q) (l2 := .ParenClose :: lex cc q)
      ?_ (fun r e => h6 (by injection e)) rfl h7 (skip_all h3 (hb1 _)) (Gram.Skip.refl (hb1 _))
    simpa using skip_all h2 hn
  | @noArith p h1 =>
    refine ⟨.Subst (.Arith none), fun _ => rfl, fun q => ⟨_, .same, .inl ?_⟩⟩
    rw [arith_lex hs]
    exact .noArithmetic (skip_all h1 (hb1 _)) (Gram.Skip.refl (hb1 _))
  | @len p hp =>
    refine ⟨.Subst (.Len p), fun _ => rfl, fun q => ⟨_, .same, .inl ?_⟩⟩
    obtain ⟨t, h1, h2, h3⟩ := param_tok hs p hp '}' q (by decide)
    have e : "${#".toList ++ paramText p ++ ['}'] ++ q = '$' :: '{' :: '#' :: (paramText p ++ '}' :: q) := by simp
    have hl : lex cc ('#' :: (paramText p ++ '}' :: q)) = .Pound :: lex cc (paramText p ++ '}' :: q) :=
      lex_end hs .Pound _ (by decide) (by decide)
    rw [e, lex_brace hs, hl, h1, lex_close hs]
    refine .braced (.name (.special (q := .Pound) (by simp [specialParams]))) ?_
    rcases h3 with h3 | h3
    · exact .curlyLen h2 h3
    · exact .curlyLenSpecial h3
  | @dollar p cs hp h0 =>
    refine ⟨.Subst (.Command ⟨cs, []⟩), fun _ => rfl, fun q => ?_⟩
    have e : substText p ++ q = '$' :: '(' :: (p ++ '\n' :: ')' :: q) := by
      have h : substText p = '$' :: '(' :: p ++ ['\n', ')'] := rfl
      rw [h]; simp
    have hcl : lex cc (')' :: q) = .ParenClose :: lex cc q := lex_end hs .ParenClose _ (by decide) (by decide)
    obtain ⟨ns, h⟩ := hp.group (cfg := parenDelim) (q := ')' :: q) ⟨by simp [parenDelim, EndTok], by simp [parenDelim], by simp [parenDelim]⟩
      (by rw [hcl]; exact ⟨by simp [Gram.NoBlank], by intro r; simp, .inl (.inl ⟨_, by simp [parenDelim], _, rfl⟩)⟩)
      (by simp [groupEnds, parenDelim])
    rw [hcl] at h
    have hno : ∀ l', lex cc (p ++ '\n' :: ')' :: q) ≠ .ParenOpen :: l' := by
      intro l' e
      have := C01_concat_tokens cc (p ++ '\n' :: ')' :: q)
      rw [e] at this
      cases p with
      | nil => simp [concatTokens, Token.asStr] at this
      | cons c p => simp [concatTokens, Token.asStr] at this; simp [← this.1] at h0
    refine ⟨.Subst (.Command ⟨cs, ns⟩), .subst rfl, .inl ?_⟩
    rw [e, lex_dollar hs (by intro c hc; cases hc; decide), open_paren hs]
    refine .commandSubst ?_ (.subshell h (fun _ => rfl))
    intro l' e
    injection e with _ e
    exact hno _ e
  | @ticks t p cs ht hp h =>
    refine ⟨.CommandSubst ⟨cs, []⟩, fun _ => rfl, fun q => ?_⟩
    have hb : ∀ rest, lex cc ('`' :: rest) = .Backtick :: lex cc rest :=
      lex_lone hs (c := '`') (t := .Backtick) (by decide) (by decide)
    have hend := fun rest => ticked_end hs rest _ (Nat.le_refl _) ht
    have hbody : Body .Backtick (anywhere (lex cc p)) := by
      obtain ⟨xs, h1, h2⟩ := spans_lex hs _ (e := '`') (k := .Backtick) (by decide) (Nat.le_refl _) hp []
      rw [hend, lex_nil] at h1
      obtain rfl : lex cc p = xs := (List.append_inj_left' h1 rfl)
      exact h2
    have hun := ticked_lex hs _ (Nat.le_refl _) ht
    have hall : lex cc (tickText p ++ q) = .Backtick :: lex cc p ++ .Backtick :: lex cc q := by
      have : tickText p ++ q = '`' :: (p ++ '`' :: q) := by simp [tickText]
      rw [this, hb, hend]; rfl
    obtain ⟨ns, h⟩ := prog_group (parsesTo_iff.1 h)
    refine ⟨.CommandSubst ⟨cs, ns⟩, .cmd rfl, .inr ?_⟩
    rw [hall]
    exact .backtick hbody (by rw [hun]; exact h)

/-- Two lists of parts of a double quoted word, but for comments. -/
inductive PSame : (Str ⊕ SimpleWordKind SCommand) → (Str ⊕ SimpleWordKind SCommand) → Prop
  | same {x} : PSame x x
  | frag {s t} : SSame s t → PSame (.inr s) (.inr t)

theorem gather_same {ps qs : List (Str ⊕ SimpleWordKind SCommand)} (h : List.Forall₂ PSame ps qs) :
    ∀ s, List.Forall₂ SSame (gather s ps) (gather s qs) := by
  have self : ∀ l, List.Forall₂ SSame l l := forall2_self fun _ => .same
  induction h with
  | nil => exact fun s => self _
  | @cons x y l l' h1 _ ih =>
    intro s
    cases h1 with
    | frag h1 => exact forall2_app (self _) (.cons h1 (ih _))
    | same =>
      cases x with
      | inl t => exact ih _
      | inr w => exact forall2_app (self _) (.cons .same (ih _))

/-- Reading what is woven between double quotes. -/
theorem dqWoven_reads (hs : cc.Sane) {bs : List Bit} {p : Str} (h : DqWoven cc bs p) :
    ∃ us, psBits us = bs ∧ ∀ rest, ∃ us', List.Forall₂ PSame us us' ∧
      RD (.interpParts (some .DoubleQuote)) (lex cc (p ++ '"' :: rest)) us' (lex cc rest) := by
  have self : ∀ l : List (Str ⊕ SimpleWordKind SCommand), List.Forall₂ PSame l l := forall2_self fun _ => .same
  induction h with
  | text h1 =>
    obtain ⟨us, h2, h3⟩ := dq_prefix (B := DefaultBuilder) hs _ (Nat.le_refl _) h1
    refine ⟨us, ?_, fun rest => ⟨us, self _, ?_⟩⟩
    · rw [psBits_items (by rw [h2]; exact dqWritten_other h1), h2]
    · have := h3 (vs := []) (rest := '"' :: rest) (r := lex cc rest) (b := u) (b' := u) ⟨_, _, rfl, by decide⟩
        (by rw [lex_dquote]; exact .interpEnd)
      simpa using this
  | @subst is p f w ks r h1 h2 _ ih =>
    obtain ⟨us, g2, g3⟩ := dq_prefix (B := DefaultBuilder) hs _ (Nat.le_refl _) h1
    obtain ⟨k, g4, g5⟩ := subst_reads hs h2
    obtain ⟨vs, g6, g7⟩ := ih
    refine ⟨us ++ .inr k :: vs, ?_, fun rest => ?_⟩
    · rw [psBits_append, psBits, g4, g6, psBits_items (by rw [g2]; exact dqWritten_other h1), g2]; rfl
    · obtain ⟨vs', g8, g9⟩ := g7 rest
      obtain ⟨k', g10, g11⟩ := g5 (r ++ '"' :: rest)
      refine ⟨us ++ .inr k' :: vs', forall2_app (self _) (.cons (.frag g10) g8), ?_⟩
      rw [List.append_assoc, List.append_assoc]
      obtain ⟨c, w', rfl, hc⟩ := h2.start
      have hnq : ∀ t l', lex cc (c :: w' ++ (r ++ '"' :: rest)) = t :: l' → some Token.DoubleQuote ≠ some t := by
        rintro t l' e e'
        have := C01_concat_tokens cc (c :: w' ++ (r ++ '"' :: rest))
        rw [e] at this
        cases e'
        simp [concatTokens, Token.asStr] at this
        rw [← this.1] at hc
        revert hc; decide
      refine g3 ⟨c, _, rfl, ?_⟩ ?_
      · have key : ∀ c ∈ "$`".toList, c ∈ "\"$`".toList := by decide
        exact key c hc
      · rcases g11 with g11 | g11
        · exact .interpParam hnq g11 g9
        · exact .interpBacktick hnq g11 g9

/-- Reading a word. -/
theorem woven_reads (hs : cc.Sane) {bs : List Bit} {p : Str} (h : Woven cc bs p) :
    ∃ us, us.flatMap kpBits = bs ∧ (p ≠ [] → us ≠ []) ∧ ∀ rest, Gram.EndsWord (lex cc rest) → ∃ us', List.Forall₂ WSame us us' ∧
      RD (.pieces none) (lex cc (p ++ rest)) us' (lex cc rest) := by
  have self : ∀ l : List (WordKind SCommand), List.Forall₂ WSame l l := forall2_self fun _ => .same
  induction h with
  | text h1 =>
    obtain ⟨us, h2, h3, h4⟩ := written_prefix (B := DefaultBuilder) hs _ (Nat.le_refl _) h1
    refine ⟨us, ?_, h3, fun rest hr => ⟨us, self _, ?_⟩⟩
    · rw [flatMap_items (by rw [h2]; exact written_other h1), h2]
    · have := h4 (vs := []) (rest := rest) (r := lex cc rest) (b := u) (b' := u) (stopper_end hs hr) (.endWord hr)
      simpa using this
  | @subst is p f w ks r h1 h2 _ ih =>
    obtain ⟨us, g2, -, g3⟩ := written_prefix (B := DefaultBuilder) hs _ (Nat.le_refl _) h1
    obtain ⟨k, g4, g5⟩ := subst_reads hs h2
    obtain ⟨vs, g6, -, g7⟩ := ih
    refine ⟨us ++ .Simple k :: vs, ?_, by simp, fun rest hr => ?_⟩
    · rw [List.flatMap_append, List.flatMap_cons, g6, flatMap_items (by rw [g2]; exact written_other h1), g2]
      rw [show kpBits (.Simple k) = ksBits false k from rfl, g4]; rfl
    · obtain ⟨vs', g8, g9⟩ := g7 rest hr
      obtain ⟨k', g10, g11⟩ := g5 (r ++ rest)
      refine ⟨us ++ .Simple k' :: vs', forall2_app (self _) (.cons (.simple g10) g8), ?_⟩
      rw [List.append_assoc, List.append_assoc]
      obtain ⟨c, w', rfl, hc⟩ := h2.start
      have hop : opStart c := by
        have key : ∀ c ∈ "$`".toList, ∃ p ∈ operators, p.1.head? = some c := by decide
        exact key c hc
      refine g3 (stopper_op hs hop _) ?_
      rcases g11 with g11 | g11
      · exact .consPiece (by simp) (.pieceParam g11) g9
      · exact .consPiece (by simp) (.pieceBacktick g11) g9
  | @double is p js s ks r h1 h2 _ ih =>
    obtain ⟨us, g2, -, g3⟩ := written_prefix (B := DefaultBuilder) hs _ (Nat.le_refl _) h1
    obtain ⟨ps, g4, g5⟩ := dqWoven_reads hs h2
    obtain ⟨vs, g6, -, g7⟩ := ih
    refine ⟨us ++ .DoubleQuoted (gather [] ps) :: vs, ?_, by simp, fun rest hr => ?_⟩
    · rw [List.flatMap_append, List.flatMap_cons, g6, flatMap_items (by rw [g2]; exact written_other h1), g2]
      rw [kpBits, gather_bits, g4]; rfl
    · obtain ⟨vs', g8, g9⟩ := g7 rest hr
      obtain ⟨ps', g10, g11⟩ := g5 (r ++ rest)
      refine ⟨us ++ .DoubleQuoted (gather [] ps') :: vs', forall2_app (self _) (.cons (.double (gather_same g10 _)) g8), ?_⟩
      have e : p ++ '"' :: (s ++ '"' :: r) ++ rest = p ++ ('"' :: (s ++ '"' :: (r ++ rest))) := by simp
      rw [e]
      refine g3 (stopper_op hs (by rw [opStart_iff]; decide) _) ?_
      rw [lex_dquote]
      exact .consPiece (by simp) (.doubleQuoted (.interp g11)) g9

/-! ## The claims -/

/-- **C66.** Whatever way a word is written in - characters as they are, escaped or in quotes, parameters, scripts in
`$(…)` or in backticks, outside and inside of double quotes, in any mixture, number and order - the parser returns
one word, always the same, that consists of exactly what is written; and what follows it is left. -/
theorem C66_word (hs : cc.Sane) (bs : List Bit) (p : Str) (hp : p ≠ []) (hh : p.head? ≠ some '#') (h : Woven cc bs p) :
    ∃ W, wordBits W = bs ∧ ∀ rest, Gram.EndsWord (lex cc rest) →
      Parses (B := DefaultBuilder) .wordPreserveTrailingWhitespace (parserOn (lex cc (p ++ rest)) ()) (some W) (lex cc rest) () := by
  obtain ⟨us, h1, h2, h3⟩ := woven_reads hs h
  refine ⟨stringCore.word (wordWith us), ?_, fun rest hr => ?_⟩
  · rw [wordBits_word, kBits_wordWith, h1]
  · obtain ⟨us', h4, h5⟩ := h3 rest hr
    have hne : us' ≠ [] := by
      intro e
      subst e
      cases h4
      exact h2 hp rfl
    rw [wordP_iff, word_comments h4]
    have := Reads.someWord (.refl (pieces_start h5 hne)) (no_pound hp hh) h5
    rw [wordOf_eq hne] at this
    exact .wordPSome this rfl

theorem Spec.Woven.start (hs : cc.Sane) {bs : List Bit} {p : Str} (h : Woven cc bs p) (hp : p ≠ [])
    (hb : p.head? ≠ some '\\') : ∃ c r, p = c :: r ∧ c ≠ '\\' ∧ cc.whitespace c = false := by
  have op : ∀ c ∈ "\"$`".toList, c ≠ '\\' ∧ cc.whitespace c = false := by
    intro c hc
    have h1 : ∀ c ∈ "\"$`".toList, c ≠ '\n' ∧ c ≠ '\\' ∧ ∃ p ∈ operators, p.1.head? = some c := by decide
    obtain ⟨h2, h3, h4⟩ := h1 c hc
    exact ⟨h3, (hs.op _ (.inl h4)).2 h2⟩
  have go : ∀ {is : List Item} {p x : Str} {c : Char}, Written cc is p → c ∈ "\"$`".toList → (p ++ c :: x).head? ≠ some '\\' →
      ∃ d r, p ++ c :: x = d :: r ∧ d ≠ '\\' ∧ cc.whitespace d = false := by
    intro is p x c h hc hb
    by_cases h0 : p = []
    · subst h0
      exact ⟨c, x, rfl, op c hc⟩
    · obtain ⟨d, r, rfl, h'⟩ := h.start hs h0 (by
        obtain ⟨d, r, rfl⟩ := List.exists_cons_of_ne_nil h0
        exact hb)
      exact ⟨d, _, rfl, h'⟩
  cases h with
  | text h => exact h.start hs hp hb
  | subst h1 h2 _ =>
    obtain ⟨c, w, rfl, hc⟩ := h2.start
    have key : ∀ c ∈ "$`".toList, c ∈ "\"$`".toList := by decide
    exact go h1 (key c hc) hb
  | double h1 _ _ => exact go h1 (by decide) hb

/-- Words and how they are written: not starting with `#` (a comment) or a backslash. -/
def Spec.WovenWord (cc : CharClass) (a : Str × List Bit) : Prop :=
  a.1 ≠ [] ∧ a.1.head? ≠ some '#' ∧ a.1.head? ≠ some '\\' ∧ Woven cc a.2 a.1

/-- **C66.** Such a text is a word wherever words stand (C53, C64). -/
theorem C66_whole (hs : cc.Sane) (a : Str × List Bit) (h : WovenWord cc a) :
    ∃ W, wordBits W = a.2 ∧ WholeWord cc a.1 W := by
  obtain ⟨h1, h2, h3, h4⟩ := h
  obtain ⟨W, h5, h6⟩ := C66_word hs a.2 a.1 h1 h2 h4
  exact ⟨W, h5, h4.start hs h1 h3, fun q hq => h6 q (ends_at hs hq)⟩

/-- **C66, command lines.** A line of such words is a script of one command, whose words are, in this order, exactly the
words written. So scripts can be nested in words in scripts to any depth: the script of this command may be
substituted in the next word. -/
theorem C66_command_line (hs : cc.Sane) (a : Str × List Bit) (as : List (Str × List Bit))
    (h : ∀ x ∈ a :: as, WovenWord cc x) (hf : FirstWord cc a.1) :
    ∃ ws, ws.map wordBits = (a :: as).map (·.2) ∧
      Whole cc (wordsText ((a :: as).map (·.1))) [one (wordsCommand ws)] := by
  have key : ∀ as : List (Str × List Bit), (∀ x ∈ as, WovenWord cc x) → ∃ ws : List (Str × SWord),
      ws.map (·.1) = as.map (·.1) ∧ (ws.map (·.2)).map wordBits = as.map (·.2) ∧ ∀ w ∈ ws, WholeWord cc w.1 w.2 := by
    intro as
    induction as with
    | nil => exact fun _ => ⟨[], rfl, rfl, by simp⟩
    | cons a as ih =>
      intro h
      obtain ⟨ws, h1, h2, h3⟩ := ih fun x hx => h x (by simp [hx])
      obtain ⟨w, h4, h5⟩ := C66_whole hs a (h a (by simp))
      refine ⟨(a.1, w) :: ws, by simp [h1], by simpa [h4] using h2, ?_⟩
      intro x hx
      rcases List.mem_cons.1 hx with rfl | hx
      · exact h5
      · exact h3 x hx
  obtain ⟨ws, h1, h2, h3⟩ := key as fun x hx => h x (by simp [hx])
  obtain ⟨w, h4, h5⟩ := C66_whole hs a (h a (by simp))
  refine ⟨((a.1, w) :: ws).map (·.2), by simpa [h4] using h2, ?_⟩
  have := C53_command hs (a.1, w) ws (by
    intro x hx
    rcases List.mem_cons.1 hx with rfl | hx
    · exact h5
    · exact h3 x hx) hf
  rw [List.map_cons, h1] at this
  exact this

/-- **C66.** A text is a way of writing at most one word: what is written is determined by the text, scripts
included. -/
theorem C66_one_reading (hs : cc.Sane) (bs cs : List Bit) (p : Str) (hp : p ≠ []) (hh : p.head? ≠ some '#')
    (h : Woven cc bs p) (h' : Woven cc cs p) : bs = cs := by
  obtain ⟨w, h1, h2⟩ := C66_word hs bs p hp hh h
  obtain ⟨v, h3, h4⟩ := C66_word hs cs p hp hh h'
  have he : Gram.EndsWord (lex cc []) := by rw [lex_nil]; intro t r e; cases e
  have := (h2 [] he).1.symm.trans (h4 [] he).1
  have e : some w = some v := by injection this
  cases e
  exact h1.symm.trans h3

/-- **C66.** Every arithmetic expression can be substituted: written as in C39 - with an operator's operands in
parentheses - it is read as this very expression. -/
theorem C66_every_expression (hs : cc.Sane) (a : DefaultArithmetic) (ha : ArithOk cc a) :
    SubstText cc (.arith (some a)) ("$((".toList ++ (' ' :: (arithText a ++ [' '])) ++ "))".toList) := by
  obtain ⟨u, ⟨t, u, rfl, ht⟩, h2, h3⟩ := arith_reads hs ha
  have e : lex cc (' ' :: (arithText a ++ [' '])) = [wsp] ++ (t :: u) ++ [wsp] := by
    rw [lex_space hs (by rw [h3.2]; exact h3.1 _), h3.2, lex_space hs (by rw [lex_nil]; simp [Gram.NoBlank]), lex_nil]
    simp
  refine .arith e (.ws .nil) (.ws .nil) ?_ ?_ ?_ (up_seq h2)
  all_goals rcases ht with ⟨x, rfl⟩ | ⟨x, rfl⟩ | rfl <;> simp

end

/-! ## An example: a script with a here-document in double quotes, and one in backticks -/

example : ∃ cs c, cs.length = 3 ∧ ParsesTo ascii tickSample [c] ∧
    WovenWord ascii ('x' :: '"' :: ('a' :: ' ' :: (substText hereScript ++ ['b']) ++ '"' :: (tickText tickSampleIn ++ writtenSample)),
      .item (.chr 'x' false) :: .item (.chr 'a' true) :: .item (.chr ' ' true) :: .script cs true :: .item (.chr 'b' true) ::
        .script [c] false :: writtenItems.map .item) := by
  obtain ⟨cs, hp, hlen, _⟩ := hereScript_fits
  have h0 : hereScript.head? ≠ some '(' := by decide +kernel
  have key : ((script 3 ⟨some (PSt.new (I := CIter) (B := DefaultBuilder) (lex ascii tickSample) ())⟩).map List.length) = some 1 := by
    decide +kernel
  obtain ⟨ds, h1, h2⟩ := Option.map_eq_some_iff.1 key
  obtain ⟨c, rfl⟩ := List.length_eq_one_iff.1 h2
  have hc : ParsesTo ascii tickSample [c] := script_sound h1
  have ht : SubstText ascii (.script [c]) (tickText tickSampleIn) := .ticks tickSample_ticked tickSample_spans hc
  have hd : SubstText ascii (.script cs) (substText hereScript) := .dollar hp h0
  refine ⟨cs, c, hlen, hc, by simp, by simp, by simp, ?_⟩
  have w := written_sample
  generalize tickText tickSampleIn = t at *
  generalize substText hereScript = d at *
  generalize writtenSample = p at *
  generalize writtenItems = is at *
  have q1 : DqWoven ascii [.item (.chr 'b' true)] ['b'] := .text (is := [.chr 'b' true]) (.char (by decide) .nil)
  have q2 : DqWoven ascii (.item (.chr 'a' true) :: .item (.chr ' ' true) :: .script cs true :: [.item (.chr 'b' true)])
      ('a' :: ' ' :: (d ++ ['b'])) :=
    .subst (is := [.chr 'a' true, .chr ' ' true]) (p := ['a', ' ']) (.char (by decide) (.char (by decide) .nil)) hd q1
  have q3 : Woven ascii (.script [c] false :: is.map .item) (t ++ p) := .subst (is := []) (p := []) .nil ht (.text w)
  have q4 := Woven.double (is := [.chr 'x' false]) (p := ['x']) (.bare (c := 'x') (by unfold Spec.Bare; decide) .nil) q2 q3
  simpa using q4

/-- In double quotes: `"a$(( (x+1) ))"`, the parentheses and blanks as in `arithText`. -/
example : WovenWord ascii ('"' :: (('a' :: ("$((".toList ++ (' ' :: (arithText (.Add (.Var ['x']) (.Literal 1)) ++ [' '])) ++ "))".toList)) ++ ['"']),
    [.item (.chr 'a' true), .arith (some (.Add (.Var ['x']) (.Literal 1))) true]) := by
  have ha : ArithOk ascii (.Add (.Var ['x']) (.Literal 1)) :=
    .bin (by simp) (.var ⟨_, _, rfl, by decide, by decide⟩) (.literal (by decide) (by decide))
  have h := C66_every_expression ascii_sane _ ha
  refine ⟨by simp, by simp, by simp, ?_⟩
  generalize "$((".toList ++ (' ' :: (arithText (.Add (.Var ['x']) (.Literal 1)) ++ [' '])) ++ "))".toList = d at *
  have q1 : DqWoven ascii [.item (.chr 'a' true), .arith (some (.Add (.Var ['x']) (.Literal 1))) true] ('a' :: (d ++ [])) :=
    .subst (is := [.chr 'a' true]) (p := ['a']) (.char (by decide) .nil) h (.text .nil)
  have q2 := Woven.double (cc := ascii) (is := []) (p := []) .nil q1 (.text .nil)
  simpa using q2

/-- `a${#xy}`, `a${##}`, `a$(( ))`. -/
example : WovenWord ascii ('a' :: ("${#xy}".toList ++ []), .item (.chr 'a' false) :: .len (.Var ['x', 'y']) false :: []) ∧
    WovenWord ascii ('a' :: ("${##}".toList ++ []), .item (.chr 'a' false) :: .len .Pound false :: []) ∧
    WovenWord ascii ('a' :: ("$(( ))".toList ++ []), .item (.chr 'a' false) :: .arith none false :: []) := by
  have key : ∀ (f : Bool → Bit) (w : Str), SubstText ascii f w →
      WovenWord ascii ('a' :: (w ++ []), .item (.chr 'a' false) :: f false :: []) := fun f w h =>
    ⟨by simp, by simp, by simp,
      .subst (is := [.chr 'a' false]) (p := ['a']) (.bare (c := 'a') (by unfold Spec.Bare; decide) .nil) h (.text .nil)⟩
  refine ⟨key _ _ (.len (p := .Var ['x', 'y']) ⟨_, _, rfl, by decide, by decide⟩), key _ _ (.len (p := .Pound) trivial),
    key _ _ (.noArith (p := [' ']) ?_)⟩
  rw [lex_space ascii_sane (by rw [lex_nil]; simp [Gram.NoBlank]), lex_nil]
  exact .ws .nil

end Conch
