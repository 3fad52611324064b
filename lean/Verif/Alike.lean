import Verif.Grammar
import Verif.PropsDefault
/-!
# C56: sources that differ only in names, text and blanks
-/
namespace Conch
open Gram

/-! ## Specification -/

/-- The words that mean something to the parser. -/
def Spec.keywords : List Str :=
  ["if", "then", "elif", "else", "fi", "for", "in", "do", "done", "while", "until", "case", "esac", "function"].map
    String.toList

/-- `Alike t t'`: the same token, or two names, two other texts or two blanks. Neither may be a keyword or a number:
a name or blank has a character that is neither digit nor sign, another text one that cannot be in a number. The
operators of here-documents are like nothing, because the text of a delimiter matters. -/
inductive Spec.Alike : Token → Token → Prop
  | same {t} : t ≠ .DLess → t ≠ .DLessDash → Alike t t
  | name {x y : Str} : x ∉ keywords → y ∉ keywords → (∃ c ∈ x, c ∉ "0123456789+-".toList) →
      (∃ c ∈ y, c ∉ "0123456789+-".toList) → Alike (.Name x) (.Name y)
  | text {x y : Str} : x ∉ keywords → y ∉ keywords → (∃ c ∈ x, c ∉ "0123456789abcdefABCDEFxX+-".toList) →
      (∃ c ∈ y, c ∉ "0123456789abcdefABCDEFxX+-".toList) → Alike (.Literal x) (.Literal y)
  | blank {x y : Str} : (∃ c ∈ x, c ∉ "0123456789+-".toList) → (∃ c ∈ y, c ∉ "0123456789+-".toList) →
      Alike (.Whitespace x) (.Whitespace y)

open Spec (Alike keywords Signed Digits Numeral digitTable)

/-! ## Texts -/

/-- Not a number. -/
def Odd' (x : Str) : Prop := ∃ c ∈ x, c ∉ "0123456789+-".toList

/-- Equal, or both not numbers. -/
def Txt' (x y : Str) : Prop := x = y ∨ Odd' x ∧ Odd' y

theorem Txt'.refl (x : Str) : Txt' x x := .inl rfl

theorem Txt'.append {x y x' y' : Str} (h : Txt' x y) (h' : Txt' x' y') : Txt' (x ++ x') (y ++ y') := by
  have hl : ∀ {x : Str} (z : Str), Odd' x → Odd' (x ++ z) := fun z ⟨c, h1, h2⟩ => ⟨c, by simp [h1], h2⟩
  have hr : ∀ {x : Str} (z : Str), Odd' x → Odd' (z ++ x) := fun z ⟨c, h1, h2⟩ => ⟨c, by simp [h1], h2⟩
  rcases h with rfl | ⟨h1, h2⟩
  · rcases h' with rfl | ⟨h3, h4⟩
    · exact .inl rfl
    · exact .inr ⟨hr _ h3, hr _ h4⟩
  · exact .inr ⟨hl _ h1, hl _ h2⟩

theorem Txt'.empty {x y : Str} (h : Txt' x y) : x = [] ↔ y = [] := by
  rcases h with rfl | ⟨⟨c, h1, _⟩, d, h2, _⟩
  · rfl
  · constructor <;> (rintro rfl; simp at *)

theorem odd_of_text {x : Str} (h : ∃ c ∈ x, c ∉ "0123456789abcdefABCDEFxX+-".toList) : Odd' x := by
  obtain ⟨c, h1, h2⟩ := h
  refine ⟨c, h1, fun h => h2 ?_⟩
  have key : ∀ c ∈ "0123456789+-".toList, c ∈ "0123456789abcdefABCDEFxX+-".toList := by decide
  exact key c h

theorem Spec.Alike.txt {t t' : Token} (h : Alike t t') : Txt' t.asStr t'.asStr := by
  cases h with
  | same => exact .inl rfl
  | name _ _ h1 h2 => exact .inr ⟨h1, h2⟩
  | text _ _ h1 h2 => exact .inr ⟨odd_of_text h1, odd_of_text h2⟩
  | blank h1 h2 => exact .inr ⟨h1, h2⟩

theorem Spec.Alike.symm {t t' : Token} (h : Alike t t') : Alike t' t := by
  cases h with
  | same h1 h2 => exact .same h1 h2
  | name h1 h2 h3 h4 => exact .name h2 h1 h4 h3
  | text h1 h2 h3 h4 => exact .text h2 h1 h4 h3
  | blank h1 h2 => exact .blank h2 h1

theorem allDigits_odd {x : Str} (h : Odd' x) : ¬ AllDigits x := by
  obtain ⟨c, h1, h2⟩ := h
  intro h
  have key : ∀ c ∈ "0123456789".toList, c ∈ "0123456789+-".toList := by decide
  exact h2 (key _ (h c h1))

theorem Txt'.digits {x y : Str} (h : Txt' x y) (hx : AllDigits x) : AllDigits y := by
  rcases h with rfl | ⟨h1, _⟩
  · exact hx
  · exact absurd hx (allDigits_odd h1)

theorem digits_mem {base : Nat} {s : Str} {ds : List Nat} (h : Digits base s ds) {c : Char} (hc : c ∈ s) :
    ∃ d, (c, d) ∈ digitTable ∧ d < base := by
  obtain ⟨h1, h2⟩ := h
  obtain ⟨i, hi, rfl⟩ := List.getElem_of_mem hc
  have hi' : i < (s.zip ds).length := by simp; omega
  have := h2 _ (List.getElem_mem hi')
  simp only [List.getElem_zip] at this
  exact ⟨_, this⟩

theorem signed_mem {base : Nat} {s : Str} {n : Int} (h : Signed base s n) {c : Char} (hc : c ∈ s) :
    c = '+' ∨ c = '-' ∨ ∃ d, (c, d) ∈ digitTable ∧ d < base := by
  cases h with
  | plain _ h => exact .inr (.inr (digits_mem h hc))
  | plus _ h =>
    rcases List.mem_cons.1 hc with rfl | hc
    · exact .inl rfl
    · exact .inr (.inr (digits_mem h hc))
  | minus _ h =>
    rcases List.mem_cons.1 hc with rfl | hc
    · exact .inr (.inl rfl)
    · exact .inr (.inr (digits_mem h hc))

theorem signed_not_odd {s : Str} {n : Int} (h : Signed 10 s n) : ¬ Odd' s := by
  rintro ⟨c, h1, h2⟩
  rcases signed_mem h h1 with rfl | rfl | ⟨d, h3, h4⟩
  · exact h2 (by decide)
  · exact h2 (by decide)
  · have key : ∀ p ∈ digitTable, p.2 < 10 → p.1 ∈ "0123456789+-".toList := by decide
    exact h2 (key _ h3 h4)

theorem digit_hex : ∀ p ∈ digitTable, p.1 ∈ "0123456789abcdefABCDEFxX+-".toList := by decide

theorem signed_hex {base : Nat} {s : Str} {n : Int} (h : Signed base s n) {c : Char} (hc : c ∈ s) :
    c ∈ "0123456789abcdefABCDEFxX+-".toList := by
  rcases signed_mem h hc with rfl | rfl | ⟨d, h3, h4⟩
  · decide
  · decide
  · exact digit_hex _ h3

theorem numeral_hex {s : Str} {n : Int} (h : Numeral s n) {c : Char} (hc : c ∈ s) :
    c ∈ "0123456789abcdefABCDEFxX+-".toList := by
  have hx : ∀ x, x = 'x' ∨ x = 'X' → x ∈ "0123456789abcdefABCDEFxX+-".toList := by rintro x (rfl | rfl) <;> decide
  cases h with
  | zero h =>
    simp only [List.mem_cons, List.not_mem_nil, or_false] at hc
    rcases hc with rfl | rfl
    · decide
    · exact hx _ h
  | hex h h' =>
    simp only [List.mem_cons] at hc
    rcases hc with rfl | rfl | hc
    · decide
    · exact hx _ h
    · exact signed_hex h' hc
  | oct _ _ h' => exact signed_hex h' hc
  | dec _ h' => exact signed_hex h' hc

/-! ## Lists of tokens -/

/-- Token by token alike. -/
inductive Al : List Token → List Token → Prop
  | nil : Al [] []
  | cons {t t' l l'} : Alike t t' → Al l l' → Al (t :: l) (t' :: l')

theorem Al.symm {l l' : List Token} (h : Al l l') : Al l' l := by
  induction h with
  | nil => exact .nil
  | cons h _ ih => exact .cons h.symm ih

theorem Al.append {u v l : List Token} (h : Al (u ++ v) l) : ∃ u' v', l = u' ++ v' ∧ Al u u' ∧ Al v v' := by
  induction u generalizing l with
  | nil => exact ⟨[], l, rfl, .nil, h⟩
  | cons x u ih =>
    cases h with
    | cons h1 h2 =>
      obtain ⟨u', v', rfl, h3, h4⟩ := ih h2
      exact ⟨_ :: u', v', rfl, .cons h1 h3, h4⟩

theorem Al.app {u v u' v' : List Token} (h : Al u u') (h' : Al v v') : Al (u ++ v) (u' ++ v') := by
  induction h with
  | nil => exact h'
  | cons h _ ih => exact .cons h ih

theorem Al.nil_iff {l l' : List Token} (h : Al l l') : l = [] ↔ l' = [] := by cases h <;> simp

theorem Al.concat {l l' : List Token} (h : Al l l') : Txt' (concatTokens l) (concatTokens l') := by
  induction h with
  | nil => exact .inl rfl
  | cons h _ ih => exact Txt'.append h.txt ih

/-- Tokens that are like no other. -/
def Lone (t : Token) : Prop := ∀ x, t ≠ .Name x ∧ t ≠ .Literal x ∧ t ≠ .Whitespace x

theorem Lone.eq {t t' : Token} (h : Lone t) (ha : Alike t t') : t' = t := by
  cases ha with
  | same => rfl
  | name => exact absurd rfl (h _).1
  | text => exact absurd rfl (h _).2.1
  | blank => exact absurd rfl (h _).2.2

theorem Lone.eq' {t t' : Token} (h : Lone t) (ha : Alike t' t) : t' = t := h.eq ha.symm

/-- The other list does not start with the token either. -/
theorem Al.ne {t : Token} (ht : Lone t) {l l' : List Token} (h : Al l l') (hl : ∀ r, l ≠ t :: r) : ∀ r, l' ≠ t :: r := by
  rintro r rfl
  cases h with
  | cons h _ => rw [ht.eq' h] at hl; exact hl _ rfl

theorem Al.mem {l l' : List Token} (h : Al l l') {t : Token} (ht : t ∈ l') : ∃ t' ∈ l, Alike t' t := by
  induction h with
  | nil => cases ht
  | cons h _ ih =>
    rcases List.mem_cons.1 ht with rfl | ht
    · exact ⟨_, by simp, h⟩
    · obtain ⟨t', h1, h2⟩ := ih ht
      exact ⟨t', by simp [h1], h2⟩

/-- No token of the other list is `t` either. -/
theorem Al.all_ne {t : Token} (ht : Lone t) {l l' : List Token} (h : Al l l') (hl : ∀ x ∈ l, x ≠ t) : ∀ x ∈ l', x ≠ t := by
  rintro x hx rfl
  obtain ⟨y, h1, h2⟩ := h.mem hx
  exact hl _ h1 (ht.eq' h2)

macro "lone" : tactic => `(tactic| (intro _; exact ⟨nofun, nofun, nofun⟩))

/-! ## Blanks, lines, keywords -/

theorem Al.blanks {l l' : List Token} (hb : Gram.Blanks l) : Al l l' → Gram.Blanks l' := by
  induction hb generalizing l' with
  | nil => intro h; cases h; exact .nil
  | ws _ ih =>
    intro h
    cases h with
    | cons h1 h2 => cases h1 <;> exact .ws (ih h2)
  | escaped _ ih =>
    intro h
    obtain _ | ⟨⟨⟩, _ | ⟨⟨⟩, h⟩⟩ := h
    exact .escaped (ih h)

theorem Al.noBlank {l l' : List Token} (h : Al l l') (hl : Gram.NoBlank l) : Gram.NoBlank l' := by
  constructor
  · rintro w r rfl
    cases h with
    | cons h _ => cases h <;> exact hl.1 _ _ rfl
  · rintro r rfl
    obtain _ | ⟨h1, _ | ⟨h2, h3⟩⟩ := h
    cases h1; cases h2
    exact hl.2 _ rfl

theorem Al.skip {l l' r : List Token} (h : Al l l') (hs : Gram.Skip l r) : ∃ r', Gram.Skip l' r' ∧ Al r r' := by
  obtain ⟨bs, rfl, h1, h2⟩ := hs
  obtain ⟨u, v, rfl, h3, h4⟩ := h.append
  exact ⟨v, ⟨u, rfl, h3.blanks h1, h4.noBlank h2⟩, h4⟩

theorem Al.skip_cons {l l' r : List Token} {t : Token} (ht : Lone t) (h : Al l l') (hs : Gram.Skip l (t :: r)) :
    ∃ r', Gram.Skip l' (t :: r') ∧ Al r r' := by
  obtain ⟨r', h1, h2⟩ := h.skip hs
  cases h2 with
  | cons h3 h4 => rw [ht.eq h3] at h1; exact ⟨_, h1, h4⟩

theorem Al.noLineStart {l l' : List Token} (h : Al l l') (hl : Gram.NoLineStart l) : Gram.NoLineStart l' := by
  intro r
  exact ⟨h.ne (by lone) (fun r => (hl r).1) r, h.ne (by lone) (fun r => (hl r).2) r⟩

theorem Al.line {l l' r : List Token} {n : Nl} (h : Al l l') (hl : Line l n r) : ∃ n' r', Line l' n' r' ∧ Al r r' := by
  cases hl with
  | newline h1 =>
    obtain ⟨u, v, rfl, h3, h4⟩ := h.append
    obtain _ | ⟨⟨⟩, h4⟩ := h4
    exact ⟨_, _, .newline (h3.blanks h1), h4⟩
  | comment h1 h2 =>
    obtain ⟨u, v, rfl, h3, h4⟩ := h.append
    obtain ⟨u1, w, rfl, h6, h5⟩ := h3.append
    obtain _ | ⟨⟨⟩, h4⟩ := h4
    obtain _ | ⟨⟨⟩, h5⟩ := h5
    exact ⟨_, _, .comment (h6.blanks h1) (h5.all_ne (by lone) h2), h4⟩
  | lastComment h1 h2 =>
    obtain ⟨u, v, rfl, h3, h4⟩ := h.append
    obtain _ | ⟨⟨⟩, h4⟩ := h4
    exact ⟨_, _, .lastComment (h3.blanks h1) (h4.all_ne (by lone) h2), .nil⟩

theorem Al.optLine {l l' r : List Token} {n : Option Nl} (h : Al l l') (hl : OptLine l n r) :
    ∃ n' r', OptLine l' n' r' ∧ n'.isSome = n.isSome ∧ Al r r' := by
  cases hl with
  | some h1 =>
    obtain ⟨n', r', h2, h3⟩ := h.line h1
    exact ⟨_, _, .some h2, rfl, h3⟩
  | none h1 h2 =>
    obtain ⟨r', h3, h4⟩ := h.skip h1
    exact ⟨_, _, .none h3 (h4.noLineStart h2), rfl, h4⟩

theorem Al.lines {l l' r : List Token} {ns : List Nl} (h : Al l l') (hl : Lines l ns r) :
    ∃ ns' r', Lines l' ns' r' ∧ ns'.length = ns.length ∧ Al r r' := by
  induction hl generalizing l' with
  | nil h1 h2 =>
    obtain ⟨r', h3, h4⟩ := h.skip h1
    exact ⟨_, _, .nil h3 (h4.noLineStart h2), rfl, h4⟩
  | cons h1 _ ih =>
    obtain ⟨n', r', h2, h3⟩ := h.line h1
    obtain ⟨ns', r'', h4, h5, h6⟩ := ih h3
    exact ⟨_, _, .cons h2 h4, by simp [h5], h6⟩

theorem Spec.Alike.delimiter {t t' : Token} (h : Alike t t') : t.isWordDelimiter = t'.isWordDelimiter := by
  cases h <;> rfl

theorem Al.endsWord {l l' : List Token} (h : Al l l') (hl : Gram.EndsWord l) : Gram.EndsWord l' := by
  rintro t r rfl
  cases h with
  | cons h1 _ => rw [← h1.delimiter]; exact hl _ _ rfl

theorem Al.keyword {w : Str} (hw : w ∈ keywords) {l l' r : List Token} (h : Al l l') (hk : Gram.Keyword w l r) :
    ∃ r', Gram.Keyword w l' r' ∧ Al r r' := by
  obtain ⟨rfl | rfl, h2⟩ := hk
  · cases h with
    | cons h1 h3 =>
      cases h1 with
      | same => exact ⟨_, ⟨.inl rfl, h3.endsWord h2⟩, h3⟩
      | name h4 => exact absurd hw h4
  · cases h with
    | cons h1 h3 =>
      cases h1 with
      | same => exact ⟨_, ⟨.inr rfl, h3.endsWord h2⟩, h3⟩
      | text h4 => exact absurd hw h4

theorem Al.not_keyword {w : Str} (hw : w ∈ keywords) {l l' : List Token} (h : Al l l') (hk : ∀ r, ¬ Gram.Keyword w l r) :
    ∀ r, ¬ Gram.Keyword w l' r := by
  intro r h1
  obtain ⟨r', h2, _⟩ := h.symm.keyword hw h1
  exact hk _ h2

theorem Al.kw {w : Str} (hw : w ∈ keywords) {l l' r : List Token} (h : Al l l') (hk : Gram.Kw w l r) :
    ∃ r', Gram.Kw w l' r' ∧ Al r r' := by
  obtain ⟨l1, h1, h2⟩ := hk
  obtain ⟨l2, h3, h4⟩ := h.skip h1
  obtain ⟨r', h5, h6⟩ := h4.keyword hw h2
  exact ⟨_, ⟨_, h3, h5⟩, h6⟩

theorem Al.not_kw {w : Str} (hw : w ∈ keywords) {l l' : List Token} (h : Al l l') (hk : ∀ r, ¬ Gram.Kw w l r) :
    ∀ r, ¬ Gram.Kw w l' r := by
  intro r h1
  obtain ⟨r', h2, _⟩ := h.symm.kw hw h1
  exact hk _ h2

/-- The groups that the parser reads itself. -/
def _root_.Conch.Delims.Plain (cfg : Delims) : Prop :=
  (∀ t ∈ cfg.exactTokens, Lone t) ∧ (∀ w ∈ cfg.reservedWords, w ∈ keywords) ∧ ∀ t ∈ cfg.reservedTokens, Lone t

theorem Al.atDelim {cfg : Delims} (hc : cfg.Plain) {l l' : List Token} (h : Al l l') (hd : AtDelim cfg l) : AtDelim cfg l' := by
  rcases hd with ⟨t, h1, r, rfl⟩ | ⟨w, h1, r, h2⟩ | ⟨t, h1, r, rfl, h2⟩
  · cases h with
    | cons h3 h4 => rw [(hc.1 _ h1).eq h3]; exact .inl ⟨_, h1, _, rfl⟩
  · obtain ⟨r', h3, _⟩ := h.keyword (hc.2.1 _ h1) h2
    exact .inr (.inl ⟨_, h1, _, h3⟩)
  · cases h with
    | cons h3 h4 => rw [(hc.2.2 _ h1).eq h3]; exact .inr (.inr ⟨_, h1, _, rfl, h4.endsWord h2⟩)

theorem Al.compoundStart {l l' : List Token} {kw : CompoundKw} (h : Al l l') (hd : CompoundStart l kw) : CompoundStart l' kw := by
  cases hd with
  | subshell => obtain _ | ⟨⟨⟩, h⟩ := h; exact .subshell
  | brace h1 => obtain _ | ⟨⟨⟩, h⟩ := h; exact .brace (h.endsWord h1)
  | forKw h1 => obtain ⟨_, h2, _⟩ := h.keyword (by decide) h1; exact .forKw h2
  | caseKw h1 => obtain ⟨_, h2, _⟩ := h.keyword (by decide) h1; exact .caseKw h2
  | ifKw h1 => obtain ⟨_, h2, _⟩ := h.keyword (by decide) h1; exact .ifKw h2
  | whileKw h1 => obtain ⟨_, h2, _⟩ := h.keyword (by decide) h1; exact .whileKw h2
  | untilKw h1 => obtain ⟨_, h2, _⟩ := h.keyword (by decide) h1; exact .untilKw h2

theorem Al.not_compoundStart {l l' : List Token} (h : Al l l') (hd : ∀ kw, ¬ CompoundStart l kw) : ∀ kw, ¬ CompoundStart l' kw :=
  fun kw h1 => hd kw (h.symm.compoundStart h1)

theorem Spec.Alike.is_name {x : Str} {t : Token} (h : Alike (.Name x) t) : ∃ y, t = .Name y := by cases h <;> exact ⟨_, rfl⟩
theorem Spec.Alike.is_ws {x : Str} {t : Token} (h : Alike (.Whitespace x) t) : ∃ y, t = .Whitespace y := by cases h <;> exact ⟨_, rfl⟩

theorem Al.functionStart {l l' : List Token} (h : Al l l') (hd : FunctionStart l) : FunctionStart l' := by
  cases hd with
  | keyword h1 => obtain ⟨_, h2, _⟩ := h.keyword (by decide) h1; exact .keyword h2
  | paren =>
    obtain _ | ⟨h1, _ | ⟨⟨⟩, h⟩⟩ := h
    obtain ⟨_, rfl⟩ := h1.is_name
    exact .paren
  | wsParen =>
    obtain _ | ⟨h1, _ | ⟨h2, _ | ⟨⟨⟩, h⟩⟩⟩ := h
    obtain ⟨_, rfl⟩ := h1.is_name
    obtain ⟨_, rfl⟩ := h2.is_ws
    exact .wsParen

theorem Al.not_functionStart {l l' : List Token} (h : Al l l') (hd : ¬ FunctionStart l) : ¬ FunctionStart l' :=
  fun h1 => hd (h.symm.functionStart h1)

theorem Al.assignStart {l l' : List Token} (h : Al l l') (hd : ¬ AssignStart l) : ¬ AssignStart l' := by
  rintro ⟨x, r, rfl⟩
  obtain _ | ⟨h1, _ | ⟨h2, h3⟩⟩ := h
  cases h2
  obtain ⟨y, rfl⟩ := h1.symm.is_name
  exact hd ⟨_, _, rfl⟩

theorem Al.parens {l l' r : List Token} (h : Al l l') (hd : Parens l r) : ∃ r', Parens l' r' ∧ Al r r' := by
  obtain ⟨l1, rfl, h1⟩ := hd
  obtain _ | ⟨⟨⟩, h⟩ := h
  obtain ⟨r', h2, h3⟩ := h.skip_cons (by lone) h1
  exact ⟨r', ⟨_, rfl, h2⟩, h3⟩

theorem Al.sepAfter {l l' r : List Token} {s c} (h : Al l l') (hd : SepAfter l s c r) : ∃ c' r', SepAfter l' s c' r' ∧ Al r r' := by
  cases hd with
  | semi h1 =>
    obtain _ | ⟨⟨⟩, h⟩ := h
    obtain ⟨c', r', h2, -, h3⟩ := h.optLine h1
    exact ⟨_, _, .semi h2, h3⟩
  | amp h1 =>
    obtain _ | ⟨⟨⟩, h⟩ := h
    obtain ⟨c', r', h2, -, h3⟩ := h.optLine h1
    exact ⟨_, _, .amp h2, h3⟩
  | newline h1 h2 =>
    obtain ⟨c', r', h3, h4⟩ := h.line h1
    exact ⟨_, _, .newline h3 fun r => ⟨h.ne (by lone) (fun r => (h2 r).1) r, h.ne (by lone) (fun r => (h2 r).2) r⟩, h4⟩
  | other h1 h2 h5 =>
    obtain ⟨r', h3, h4⟩ := h.skip h1
    exact ⟨_, _, .other h3 (h4.noLineStart h2) fun r => ⟨h.ne (by lone) (fun r => (h5 r).1) r, h.ne (by lone) (fun r => (h5 r).2) r⟩, h4⟩

end Conch
