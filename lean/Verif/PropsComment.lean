import Verif.CmRead
import Verif.PropsNl
import Verif.LayoutLex
/-!
# C61: a comment at the end of a line does not matter
-/
namespace Conch
open Spec Gram

namespace Gram
variable {w : Str} {T t : List Token} {s : Bool} {l l' r : List Token}

/-- `T` is a comment and what ends it, or only a newline; `t` is what follows. -/
def TailOf (T t : List Token) : Prop :=
  ∃ q, (∀ x ∈ q, x ≠ .Newline) ∧
    (T = .Pound :: q ++ .Newline :: t ∨ (T = .Pound :: q ∧ t = []) ∨ T = .Newline :: t)

theorem TailOf.line (h : TailOf T t) {bs : List Token} (hb : Gram.Blanks bs) : ∃ n, Gram.Line (bs ++ T) n t := by
  obtain ⟨q, hq, rfl | ⟨rfl, rfl⟩ | rfl⟩ := h
  · exact ⟨_, by simpa using Gram.Line.comment (r := t) hb hq⟩
  · exact ⟨_, .lastComment hb hq⟩
  · exact ⟨_, .newline hb⟩

theorem TailOf.comment (h : TailOf T t) {bs cs : List Token} (hb : Gram.Blanks bs) (hc : ∀ x ∈ cs, x ≠ .Newline) :
    ∃ n, Gram.Line (bs ++ .Pound :: cs ++ .Whitespace w :: T) n t := by
  obtain ⟨q, hq, rfl | ⟨rfl, rfl⟩ | rfl⟩ := h
  · have := Gram.Line.comment (cs := cs ++ .Whitespace w :: .Pound :: q) (r := t) hb (by simpa [or_imp, forall_and] using ⟨hc, hq⟩)
    exact ⟨_, by simpa using this⟩
  · have := Gram.Line.lastComment (cs := cs ++ .Whitespace w :: .Pound :: q) hb (by simpa [or_imp, forall_and] using ⟨hc, hq⟩)
    exact ⟨_, by simpa using this⟩
  · have := Gram.Line.comment (cs := cs ++ [.Whitespace w]) (r := t) hb (by simpa [or_imp, forall_and] using hc)
    exact ⟨_, by simpa using this⟩

/-- What is left of the end: nothing of it, or all of it. -/
def Left (w : Str) (T t r' : List Token) : Prop := r' = t ∨ r' = .Whitespace w :: T ∨ r' = T

theorem blanks_one : Gram.Blanks [.Whitespace w] := .ws .nil

theorem CmEnd.plain (h : CmEnd w T s l l') : ∃ x, Gram.Plain none x ∧ l = x ++ [.Newline] := by
  rcases h.2 with ⟨x, h0, h1, -⟩ | ⟨-, rfl, -⟩
  · exact ⟨x, h0, h1⟩
  · exact ⟨[], .nil, rfl⟩

/-- A line (or none) that ends at the end of input or before the newline there. -/
theorem CmEnd.optLine_end {n : Option Nl} (hT : TailOf T t) (h : CmEnd w T s l l') (hl : Gram.OptLine l n r)
    (hr : r.length ≤ 1) : ∃ n' r', Gram.OptLine l' (some n') r' ∧ Left w T t r' ∧ (r = [] ∨ r = [.Newline]) := by
  obtain ⟨x, V, hx, rfl, rfl, hV⟩ : ∃ x V, Gram.Plain none x ∧ l = x ++ [.Newline] ∧ l' = x ++ (V ++ T) ∧
      (V = [.Whitespace w] ∨ V = [] ∧ x = []) := by
    rcases h.2 with ⟨x, h0, h1, h2⟩ | ⟨-, h1, h2⟩
    · exact ⟨x, [.Whitespace w], h0, h1, h2, .inl rfl⟩
    · exact ⟨[], [], .nil, h1, h2, .inr ⟨rfl, rfl⟩⟩
  have hLV : Left w T t (V ++ T) := by
    rcases hV with rfl | ⟨rfl, -⟩
    · exact .inr (.inl rfl)
    · exact .inr (.inr rfl)
  cases hl with
  | some hl =>
    generalize e : x ++ [Token.Newline] = l at hl
    cases hl with
    | @newline bs _ hb =>
      rcases r with _ | ⟨u, _ | ⟨_, _⟩⟩
      · obtain ⟨rfl, -⟩ := List.append_inj' e rfl
        rcases hV with rfl | ⟨rfl, rfl⟩
        · obtain ⟨n, hn⟩ := hT.line (blanks_ws (w := w) hb)
          exact ⟨n, t, .some (by simpa using hn), .inl rfl, .inl rfl⟩
        · obtain ⟨n, hn⟩ := hT.line .nil
          exact ⟨n, t, .some hn, .inl rfl, .inl rfl⟩
      · have e' : x ++ [.Newline] = (bs ++ [.Newline]) ++ [u] := by simpa using e
        obtain ⟨rfl, hu⟩ := List.append_inj' e' rfl
        exact ⟨_, V ++ T, .some (by simpa using Gram.Line.newline (r := V ++ T) hb), hLV, .inr hu.symm⟩
      · simp at hr
    | @comment bs cs _ hb hc =>
      rcases r with _ | ⟨u, _ | ⟨_, _⟩⟩
      · obtain ⟨rfl, -⟩ := List.append_inj' e rfl
        obtain rfl : V = [.Whitespace w] := by
          rcases hV with rfl | ⟨-, h2⟩
          · rfl
          · simp at h2
        obtain ⟨n, hn⟩ := hT.comment (w := w) hb hc
        exact ⟨n, t, .some hn, .inl rfl, .inl rfl⟩
      · have e' : x ++ [.Newline] = (bs ++ .Pound :: cs ++ [.Newline]) ++ [u] := by simpa using e
        obtain ⟨rfl, hu⟩ := List.append_inj' e' rfl
        exact ⟨_, V ++ T, .some (by simpa using Gram.Line.comment (r := V ++ T) hb hc), hLV, .inr hu.symm⟩
      · simp at hr
    | @lastComment bs cs hb hc =>
      rcases List.eq_nil_or_concat cs with rfl | ⟨cs, d, rfl⟩
      · have := (List.append_inj' e rfl).2
        simp at this
      · have h2 : x ++ [.Newline] = bs ++ .Pound :: cs ++ [d] := by simpa using e
        have := (List.append_inj' h2 rfl).2
        simp at this
        exact absurd this.symm (hc d (by simp))
  | none hs hn =>
    obtain ⟨bs, y, h1, h2, -⟩ := skip_probe hs hx.last
    subst h2
    cases y with
    | nil => exact absurd rfl (hn _).1
    | cons => simp at hr

theorem CmEnd.sepAfter_end {k : SeparatorKind} {cm : Option Nl} (hT : TailOf T t) (h : CmEnd w T s l l')
    (hp : Gram.SepAfter l k cm r) (hr : r.length ≤ 1) :
    ∃ k' cm' r', Gram.SepAfter l' k' cm' r' ∧ (k = .Amp ↔ k' = .Amp) ∧ Left w T t r' ∧ (r = [] ∨ r = [.Newline]) := by
  have line : ∀ {n}, Gram.OptLine l n r → (∀ r, l ≠ .Semi :: r ∧ l ≠ .Amp :: r) →
      ∃ k' cm' r', Gram.SepAfter l' k' cm' r' ∧ k' ≠ .Amp ∧ Left w T t r' ∧ (r = [] ∨ r = [.Newline]) := by
    intro n hl hn
    obtain ⟨n', r', h1, h2⟩ := h.optLine_end hT hl hr
    cases h1 with
    | some h1 => exact ⟨_, _, _, .newline h1 (h.noSep hn), by simp, h2⟩
  cases hp with
  | semi h1 =>
    obtain ⟨l1, rfl, h2⟩ := h.cons_ne (by simp)
    obtain ⟨n', r', h3, h4⟩ := h2.optLine_end hT h1 hr
    exact ⟨_, _, _, .semi h3, by simp, h4⟩
  | amp h1 =>
    obtain ⟨l1, rfl, h2⟩ := h.cons_ne (by simp)
    obtain ⟨n', r', h3, h4⟩ := h2.optLine_end hT h1 hr
    exact ⟨_, _, _, .amp h3, by simp, h4⟩
  | newline h1 h2 =>
    obtain ⟨s', cm', r', h3, h4, h5⟩ := line (.some h1) h2
    exact ⟨_, _, _, h3, by simp [h4], h5⟩
  | other h1 h2 h3 =>
    obtain ⟨s', cm', r', h3, h4, h5⟩ := line (.none h1 h2) h3
    exact ⟨_, _, _, h3, by simp [h4], h5⟩

/-- What is left after blank lines is more than the newline at the end. -/
theorem CmEnd.lines_lt {ns : List Nl} (h : CmEnd w T s l l') (hl : Gram.Lines l ns r) (hne : r ≠ []) : 1 < r.length := by
  obtain ⟨⟨v, rfl⟩, hn⟩ := Lines.append_eq hl
  obtain ⟨x, -, hx⟩ := h.plain
  rcases List.eq_nil_or_concat r with rfl | ⟨r, u, rfl⟩
  · exact absurd rfl hne
  · have e : v ++ r ++ [u] = x ++ [.Newline] := by simpa using hx
    obtain ⟨-, e2⟩ := List.append_inj' e rfl
    cases e2
    cases r with
    | nil => exact absurd rfl (hn _).1
    | cons => simp

end Gram

section
variable {w : Str} {T t : List Token} {s : Bool} {l l' r : List Token} {b b' : DefaultBuilder.State}
  {cs : List (TopLevelCommand Str)}

/-- With the default builder a line before the first command makes no difference. -/
theorem prog_line {n : Nl} (h : Gram.Line l n t) :
    Prog (B := DefaultBuilder) b l cs ↔ Prog (B := DefaultBuilder) b t cs := by
  have key : ∀ a r b', Reads (B := DefaultBuilder) .top b l a r b' ↔ Reads (B := DefaultBuilder) .top b t a r b' := by
    intro a r b'
    constructor
    · intro hp
      obtain ⟨ms, q, hq⟩ := Lines.total t
      have h' := Gram.Lines.cons h hq
      cases hp with
      | topCommand h1 h2 h3 =>
        obtain ⟨rfl, rfl⟩ := Lines.unique h' h1
        exact .topCommand (ns := ms) hq h2 (complete_pre h3)
      | topNone h1 => obtain ⟨h2, -⟩ := Lines.unique h' h1; cases h2
      | topComments h1 h2 h3 =>
        obtain ⟨rfl, rfl⟩ := Lines.unique h' h1
        by_cases hn : ms = []
        · subst hn; exact .topNone hq
        · exact .topComments hq hn rfl
    · intro hp
      cases hp with
      | @topCommand _ _ ns _ _ _ _ h1 h2 h3 => exact .topCommand (ns := n :: ns) (.cons h h1) h2 (complete_pre h3)
      | topNone h1 => exact .topComments (.cons h h1) (by simp) rfl
      | topComments h1 h2 h3 => exact .topComments (.cons h h1) (by simp) rfl
  constructor
  · intro h
    cases h with
    | done h => exact .done ((key _ _ _).1 h)
    | cons h h2 => exact .cons ((key _ _ _).1 h) h2
  · intro h
    cases h with
    | done h => exact .done ((key _ _ _).2 h)
    | cons h h2 => exact .cons ((key _ _ _).2 h) h2

theorem prog_left (hT : TailOf T t) (h : Left w T t r) :
    Prog (B := DefaultBuilder) b r cs ↔ Prog (B := DefaultBuilder) b t cs := by
  rcases h with rfl | rfl | rfl
  · rfl
  · obtain ⟨n, h⟩ := hT.line (Gram.blanks_one (w := w)); exact prog_line h
  · obtain ⟨n, h⟩ := hT.line .nil; exact prog_line h

theorem prog_lines_end {ns : List Nl} (hT : TailOf T t) (h : CmEnd w T s l l') (hl : Gram.Lines l ns []) :
    Prog (B := DefaultBuilder) b l' cs ↔ Prog (B := DefaultBuilder) b t cs := by
  have last : ∀ {l l' r : List Token} {s n}, CmEnd w T s l l' → Gram.OptLine l n r → r.length ≤ 1 →
      (Prog (B := DefaultBuilder) b l' cs ↔ Prog (B := DefaultBuilder) b t cs) := by
    intro l l' r s n h hl hr
    obtain ⟨n', r', h1, h2, -⟩ := h.optLine_end hT hl hr
    cases h1 with
    | some h1 => rw [prog_line h1, prog_left hT h2]
  generalize e : ([] : List Token) = r at hl
  induction hl generalizing l' s with
  | nil hs hn => subst e; exact last h (.none hs hn) (by simp)
  | @cons l n l1 ns r h1 h2 ih =>
    by_cases h3 : 1 < l1.length
    · obtain ⟨l2, h4, h5⟩ := h.line h1 h3
      exact (prog_line h5).trans (ih h4 e)
    · exact last h (.some h1) (by omega)

/-- A command that is the last one. -/
theorem top_tail {a : TopLevelCommand Str} (hT : TailOf T t) (h : CmEnd w T s l l')
    (hp : Reads (B := DefaultBuilder) .top b l (some a) r b') (hr : r.length ≤ 1) :
    ∃ r', Reads (B := DefaultBuilder) .top b l' (some a) r' b' ∧ Left w T t r' ∧ (r = [] ∨ r = [.Newline]) := by
  cases hp with
  | topCommand h1 h2 h3 =>
    have hlt := h.lines_lt h1 h2
    obtain ⟨l1, e1, g1⟩ := h.lines h1 hlt
    cases h3 with
    | @complete _ _ _ _ l2 _ _ _ _ _ _ h4 h5 h6 =>
      have hle : 1 ≤ l2.length := by
        obtain ⟨x, hx, hx1⟩ := e1.plain
        rcases (h4.strict (z := none) (t1 := []) trivial ⟨probe_none, .inl ⟨x, hx, hx1, hx1⟩⟩).or with h7 | h7
        · have := h7.len; simp at this ⊢; omega
        · simp at h7
      obtain ⟨l3, e3, g3⟩ := h4.cmEnd trivial _ e1 (by simpa [NT.slack] using hle)
      obtain ⟨s', cm', r', g5, g6, g7, g8⟩ := CmEnd.sepAfter_end hT e3 h5 hr
      exact ⟨r', .topCommand g1 e1.nonempty' (.complete g3 g5 (amp_only g6 h6)), g7, g8⟩

/-- The commands before the new end, and then those after it. -/
theorem prog_tail {cs1 : List (TopLevelCommand Str)} (hT : TailOf T t) (h1 : Prog (B := DefaultBuilder) b l cs1) :
    ∀ s l', CmEnd w T s l l' → ∀ cs, Prog (B := DefaultBuilder) b l' cs ↔
      ∃ cs2, Prog (B := DefaultBuilder) b t cs2 ∧ cs = cs1 ++ cs2 := by
  induction h1 with
  | @done b l r b' h =>
    intro s l' e cs
    obtain ⟨ns, key⟩ : ∃ ns, Gram.Lines l ns [] := by
      cases h with
      | topNone h => exact ⟨_, h⟩
      | topComments h => exact ⟨_, h⟩
    rw [prog_lines_end hT e key]
    simp
  | @cons b l c r b' cs1 h h2 ih =>
    intro s l' e cs
    have hb : b = b' := rfl
    subst hb
    suffices ∃ r', Reads (B := DefaultBuilder) .top b l' (some c) r' b ∧
        ∀ cs, Prog (B := DefaultBuilder) b r' cs ↔ ∃ cs2, Prog (B := DefaultBuilder) b t cs2 ∧ cs = cs1 ++ cs2 by
      obtain ⟨r', h3, h4⟩ := this
      constructor
      · intro hp
        obtain ⟨cs', rfl, hp'⟩ := prog_cons_unique h3 hp
        obtain ⟨cs2, hp2, rfl⟩ := (h4 _).1 hp'
        exact ⟨cs2, hp2, rfl⟩
      · rintro ⟨cs2, hp, rfl⟩
        exact .cons h3 ((h4 _).2 ⟨cs2, hp, rfl⟩)
    by_cases hr : 1 < r.length
    · obtain ⟨r', e', g⟩ := h.cmEnd trivial _ e.any (by simp only [NT.slack]; omega)
      exact ⟨r', g, ih _ _ e'⟩
    · obtain ⟨r', g, h3, h4⟩ := top_tail hT e h (by omega)
      refine ⟨r', g, fun cs => ?_⟩
      have : cs1 = [] := by
        rcases h4 with rfl | rfl
        · exact prog_nil h2
        · exact prog_nil ((prog_line (t := []) (.newline .nil)).1 h2)
      subst this
      rw [prog_left hT h3]
      simp
end

/-! ## Lexing -/

theorem op_starts : ∀ p ∈ operators, ∀ c ∈ p.1, isDigit c = true ∨ ∃ p' ∈ operators, p'.1.head? = some c := by
  have : ∀ p ∈ operators, ∀ c ∈ p.1, (isDigit c || operators.any fun p' => p'.1.head? == some c) = true := by decide
  intro p hp c hc
  simpa using this p hp c hc

/-- Blanks after something else are a token of their own. -/
theorem lex_blanks {cc : CharClass} (hs : cc.Sane) (p bl : Str) (d : Char) (y : Str)
    (hlast : ∀ c, p.getLast? = some c → c ≠ '\\' ∧ ¬ Blank cc c) (hb : bl ≠ []) (hbl : ∀ c ∈ bl, Blank cc c) (hd : ¬ Blank cc d) :
    lex cc (p ++ (bl ++ d :: y)) = lex cc p ++ .Whitespace bl :: lex cc (d :: y) := by
  obtain ⟨c, bl, rfl⟩ := List.exists_cons_of_ne_nil hb
  have hc := hbl c (by simp)
  have hop : ¬ opStart c := fun h => by
    have := (hs.op c (.inl h)).2 hc.2
    rw [hc.1] at this
    cases this
  have hbs : c ≠ '\\' := by
    rintro rfl
    have := (hs.op _ (.inr rfl)).2 (by decide)
    rw [hc.1] at this
    cases this
  have hnp : ¬ Plain cc c := fun h => by
    have := h.2.2
    rw [hc.1] at this
    cases this
  rw [C03_tokens_iff_grammar]
  have h := lex_lexes cc p
  generalize lex cc p = ts at h
  have sub : ∀ {x s : Str}, (∀ c, (x ++ s).getLast? = some c → c ≠ '\\' ∧ ¬ Blank cc c) →
      ∀ c, s.getLast? = some c → c ≠ '\\' ∧ ¬ Blank cc c := by
    intro x s h c hc
    exact h c (by simp [hc])
  induction h with
  | nil =>
    refine Lexes.blank hbs hop hc.1 ⟨fun e he => hbl e (by simp [he]), ?_⟩ (lex_lexes cc (d :: y))
    intro e he
    cases he
    exact hd
  | trailingBackslash => exact absurd rfl (hlast _ rfl).1
  | @escape e t s ts h _ ih => exact .escape h (ih (sub (x := ['\\', e]) hlast))
  | @op o t s ts h _ ih =>
    rw [List.append_assoc]
    have := longestOp_append (c := c) (rest := bl ++ d :: y) h fun p hp hpre => by
      rcases op_starts p hp c (hpre.subset (by simp)) with h3 | ⟨p', hp', h3⟩
      · have := hs.word c (by simp [CharClass.nameChar, h3])
        rw [hc.1] at this
        cases this
      · exact absurd ⟨p', hp', h3⟩ hop
    have := Lexes.op (by simpa using this) (ih (sub hlast))
    simpa using this
  | @blank e run s ts h1 h2 h3 h4 _ ih =>
    have hs' : s ≠ [] := by
      rintro rfl
      obtain ⟨u, z, hz⟩ : ∃ u z, e :: run = u ++ [z] := by
        rcases List.eq_nil_or_concat (e :: run) with h | ⟨u, z, h⟩
        · cases h
        · exact ⟨u, z, by simpa using h⟩
      have hbz : Blank cc z := by
        have hz' : z ∈ e :: run := by rw [hz]; simp
        rcases List.mem_cons.1 hz' with rfl | hz'
        · refine ⟨h3, ?_⟩
          rintro rfl
          exact h2 newline_start
        · exact h4.1 z hz'
      exact (hlast z (by rw [hz]; simp)).2 hbz
    rw [List.append_assoc]
    refine .blank h1 h2 h3 ⟨h4.1, fun e he => h4.2 e ?_⟩ (ih (sub (x := _ :: run) hlast))
    cases s with
    | nil => exact absurd rfl hs'
    | cons => exact he
  | @name e run s ts h1 h2 h3 _ ih =>
    rw [List.append_assoc]
    exact .name h1 h2 (maximalRun_append h3 (fun h => hnp h.1)) (ih (sub (x := _ :: run) hlast))
  | @literal e run s ts h1 h2 h3 _ ih =>
    rw [List.append_assoc]
    exact .literal h1 h2 (maximalRun_append h3 hnp) (ih (sub (x := _ :: run) hlast))

theorem infix_of_append {p e : Str} (h : ['<', '<'] <:+: p ++ e) (he : '<' ∉ e) : ['<', '<'] <:+: p := by
  induction e using List.reverseRecOn with
  | nil => simpa using h
  | append_singleton e c ih =>
    rw [← List.append_assoc, List.infix_concat_iff] at h
    rcases h with ⟨u, h⟩ | h
    · have h : (u ++ ['<']) ++ ['<'] = (p ++ e) ++ [c] := by simpa using h
      have := (List.append_inj' h rfl).2
      cases this
      simp at he
    · exact ih h (fun hm => he (by simp [hm]))

/-! ## The claim -/

/-- Blanks, and after them a comment or not. -/
def Spec.LineTail (cc : CharClass) (e : Str) : Prop :=
  ∃ bl, bl ≠ [] ∧ (∀ c ∈ bl, Blank cc c) ∧ (e = bl ∨ ∃ c, '\n' ∉ c ∧ e = bl ++ '#' :: c)

/-- A text that a comment can be put after: its last character is neither a backslash nor a blank, and there is no `<<`. -/
structure Spec.TakesComment (cc : CharClass) (p : Str) : Prop where
  noHere : ¬ ['<', '<'] <:+: p
  last : ∀ c, p.getLast? = some c → c ≠ '\\' ∧ ¬ Blank cc c

theorem not_blank_newline {cc : CharClass} : ¬ Blank cc '\n' := fun h => h.2 rfl

theorem not_blank_pound {cc : CharClass} (hs : cc.Sane) : ¬ Blank cc '#' := fun h => by
  have := (hs.op '#' (.inl (opStart_iff.2 (by decide)))).2 (by decide)
  rw [h.1] at this
  cases this

/-- **C61.** What is at the end of a line does not matter. If a text `p` parses, then a script that
starts with it parses to the same commands (or fails likewise) whatever blanks, or blanks and
comment, are put after it on its last line, and whatever lines follow. The text must not contain
`<<`, and must end neither in a backslash nor in a blank. -/
theorem C61_line_tail (cc : CharClass) (hs : cc.Sane) (p e q : Str) (cs1 : List (TopLevelCommand Str))
    (hp : TakesComment cc p) (he : LineTail cc e) (h : ParsesTo cc p cs1) (cs : List (TopLevelCommand Str)) :
    ParsesTo cc (p ++ e ++ '\n' :: q) cs ↔ ParsesTo cc (p ++ '\n' :: q) cs := by
  let b : DefaultBuilder.State := ()
  have hlast : p.getLast? ≠ some '\\' := fun h => (hp.last _ h).1 rfl
  rw [C52_lines_concatenate cc hs p q cs1 hp.noHere hlast h]
  have h := (C52_final_newline cc hs p hp.noHere hlast cs1).1 h
  simp only [parsesTo_iff (b := b)] at *
  have e1 : lex cc (p ++ ['\n']) = lex cc p ++ [.Newline] := by
    rw [lex_line hs p []]; rfl
  rw [e1] at h
  have hpl := lex_plain (cc := cc) hp.noHere hlast
  obtain ⟨bl, hb, hbl, rfl | ⟨c, hc, rfl⟩⟩ := he
  · have hT : TailOf (.Newline :: lex cc q) (lex cc q) := ⟨[], by simp, .inr (.inr rfl)⟩
    have e2 : lex cc (p ++ e ++ '\n' :: q) = lex cc p ++ .Whitespace e :: .Newline :: lex cc q := by
      rw [List.append_assoc, lex_blanks hs p e '\n' q hp.last hb hbl not_blank_newline, lex_newline]
    rw [e2]
    exact prog_tail hT h true _ ⟨⟨_, .inr rfl⟩, .inl ⟨_, hpl, rfl, rfl⟩⟩ cs
  · have hT : TailOf (.Pound :: lex cc c ++ .Newline :: lex cc q) (lex cc q) := ⟨_, lex_no_newline hc, .inl rfl⟩
    have e2 : lex cc (p ++ (bl ++ '#' :: c) ++ '\n' :: q) =
        lex cc p ++ .Whitespace bl :: (.Pound :: lex cc c ++ .Newline :: lex cc q) := by
      rw [← lex_comment hs, ← lex_blanks hs p bl '#' _ hp.last hb hbl (not_blank_pound hs)]
      simp
    rw [e2]
    exact prog_tail hT h true _ ⟨⟨_, .inl rfl⟩, .inl ⟨_, hpl, rfl, rfl⟩⟩ cs

/-- **C61.** Also on the last line of the input, without a newline. -/
theorem C61_last_line (cc : CharClass) (hs : cc.Sane) (p e : Str) (cs : List (TopLevelCommand Str))
    (hp : TakesComment cc p) (he : LineTail cc e) (h : ParsesTo cc p cs) : ParsesTo cc (p ++ e) cs := by
  let b : DefaultBuilder.State := ()
  have hlast : p.getLast? ≠ some '\\' := fun h => (hp.last _ h).1 rfl
  obtain ⟨bl, hb, hbl, rfl | ⟨c, hc, rfl⟩⟩ := id he
  · have hc : ∀ c, (p ++ e).getLast? = some c → Blank cc c := by
      intro c hc
      rw [List.getLast?_append_of_ne_nil _ hb] at hc
      exact hbl c (List.mem_of_getLast? hc)
    refine (C52_final_newline cc hs (p ++ e) ?_ ?_ cs).2 ?_
    · refine fun h => hp.noHere (infix_of_append h fun hm => ?_)
      have := (hs.op '<' (.inl (opStart_iff.2 (by decide)))).2 (by decide)
      rw [(hbl _ hm).1] at this
      cases this
    · intro h
      have := hc _ h
      have h2 := (hs.op _ (.inr rfl)).2 (by decide)
      rw [this.1] at h2
      cases h2
    · exact (C61_line_tail cc hs p e [] cs hp he h cs).2 ((C52_final_newline cc hs p hp.noHere hlast cs).1 h)
  · have h := (C52_final_newline cc hs p hp.noHere hlast cs).1 h
    simp only [parsesTo_iff (b := b)] at *
    have e1 : lex cc (p ++ ['\n']) = lex cc p ++ [.Newline] := by
      rw [lex_line hs p []]; rfl
    rw [e1] at h
    have hT : TailOf (.Pound :: lex cc c) [] := ⟨_, lex_no_newline hc, .inr (.inl ⟨rfl, rfl⟩)⟩
    have e2 : lex cc (p ++ (bl ++ '#' :: c)) = lex cc p ++ .Whitespace bl :: (.Pound :: lex cc c) := by
      rw [← lex_pound hs, ← lex_blanks hs p bl '#' _ hp.last hb hbl (not_blank_pound hs)]
    rw [e2, prog_tail hT h true _ ⟨⟨_, .inl rfl⟩, .inl ⟨_, lex_plain hp.noHere hlast, rfl, rfl⟩⟩ cs]
    exact ⟨[], prog_blank (.inl rfl), by simp⟩

/-- Blocks of lines, each of them with or without blanks and a comment at its end, or comments alone on lines before it. -/
inductive Spec.Commented (cc : CharClass) : List Str → Str → Prop
  | nil : Commented cc [] []
  | plain {p ps s} : Commented cc ps s → Commented cc (p :: ps) (p ++ '\n' :: s)
  | tail {p ps s e} : TakesComment cc p → LineTail cc e → Commented cc ps s →
      Commented cc (p :: ps) (p ++ e ++ '\n' :: s)
  | line {ps s c} : '\n' ∉ c → Commented cc ps s → Commented cc ps ('#' :: c ++ '\n' :: s)

/-- **C61.** A file whose blocks of lines each parse on their own parses to their commands one after the other, whatever
comments are put at the ends of the blocks and between them. -/
theorem C61_blocks (cc : CharClass) (hs : cc.Sane) (ps : List Str) (css : List (List (TopLevelCommand Str)))
    (h : AllParse cc ps css) (s : Str) (hc : Commented cc ps s) : ParsesTo cc s css.flatten := by
  induction hc generalizing css with
  | nil =>
    cases h
    exact C52_blocks cc hs [] [] .nil
  | plain hc ih =>
    cases h with
    | cons h1 h2 h3 h4 =>
      exact (C52_lines_concatenate cc hs _ _ _ h1 h2 h3 _).2 ⟨_, ih _ h4, rfl⟩
  | tail hp he hc ih =>
    cases h with
    | cons h1 h2 h3 h4 =>
      refine (C61_line_tail cc hs _ _ _ _ hp he h3 _).2 ?_
      exact (C52_lines_concatenate cc hs _ _ _ h1 h2 h3 _).2 ⟨_, ih _ h4, rfl⟩
  | @line ps s c hc _ ih =>
    let b : DefaultBuilder.State := ()
    have := ih _ h
    rw [parsesTo_iff (b := b)] at *
    rw [show '#' :: c ++ '\n' :: s = '#' :: (c ++ '\n' :: s) by simp, lex_comment hs]
    exact (prog_line (.comment (bs := []) .nil (lex_no_newline hc))).2 this

/-! ## Examples -/

instance (cc : CharClass) (c : Char) : Decidable (Blank cc c) := inferInstanceAs (Decidable (_ ∧ _))

theorem takesComment {p : Str} (h1 : ¬ ['<', '<'] <:+: p) (h2 : ∀ c ∈ p.getLast?, c ≠ '\\' ∧ ¬ Blank ascii c) :
    TakesComment ascii p := ⟨h1, h2⟩

/-- The number of words of the first command, if it is a simple one. -/
def firstWords : List (TopLevelCommand Str) → Option Nat
  | .mk (.List ⟨.Single (.Simple ⟨_, ws⟩), _⟩) :: _ => some ws.length
  | _ => none

/-- C61: the hypotheses are met by a loop, quotes and a pipe, with comments that look like code. -/
theorem C61_case : ∃ cs, cs.length = 2 ∧
    ParsesTo ascii "while a; do b 'c # d' | e; done # loop <<X `(' \t\n# alone\nf && # not yet\ng  \n".toList cs := by
  obtain ⟨cs1, h1, h2⟩ := commandCount_sound (src := "while a; do b 'c # d' | e; done") (n := 1) (by decide +kernel)
  obtain ⟨cs2, h3, h4⟩ := commandCount_sound (src := "f && # not yet\ng") (n := 1) (by decide +kernel)
  have h := AllParse.cons (by decide +kernel) (by decide +kernel) h1 (.cons (by decide +kernel) (by decide +kernel) h3 .nil)
  refine ⟨_, ?_, C61_blocks ascii ascii_sane _ _ h _ ?_⟩
  · simp [h2, h4]
  · refine Commented.tail (p := "while a; do b 'c # d' | e; done".toList) (e := " # loop <<X `(' \t".toList)
      (s := "# alone\nf && # not yet\ng  \n".toList) (takesComment (by decide +kernel) (by decide +kernel)) ?_
      (Commented.line (c := " alone".toList) (s := "f && # not yet\ng  \n".toList) (by decide +kernel)
      (Commented.tail (p := "f && # not yet\ng".toList) (e := "  ".toList) (s := [])
        (takesComment (by decide +kernel) (by decide +kernel)) ?_ .nil))
    · exact ⟨[' '], by simp, by decide +kernel, .inr ⟨" loop <<X `(' \t".toList, by decide +kernel, rfl⟩⟩
    · exact ⟨[' ', ' '], by simp, by decide +kernel, .inl rfl⟩

/-- C61: there must be a blank before the comment, and no backslash before that blank: in `a b# c` the `#` is part of
a word, and in `a b\\ # c` so is the blank. -/
theorem C61_conditions_needed : ∃ cs, ParsesTo ascii "a b".toList cs ∧
    ∀ e ∈ ["# c", "\\ # c"], ∃ cs', ParsesTo ascii ("a b".toList ++ e.toList) cs' ∧ cs' ≠ cs := by
  have k : ((script 10 ⟨some (PSt.new (I := CIter) (B := DefaultBuilder) (lex ascii "a b".toList) ())⟩).bind firstWords) = some 2 := by
    decide +kernel
  obtain ⟨cs, h1, h2⟩ := Option.bind_eq_some_iff.1 k
  refine ⟨cs, script_sound h1, ?_⟩
  intro e he
  have k : ((script 10 ⟨some (PSt.new (I := CIter) (B := DefaultBuilder) (lex ascii ("a b".toList ++ e.toList)) ())⟩).bind firstWords) =
      some 3 := by
    have : ∀ e ∈ ["# c", "\\ # c"], ((script 10 ⟨some (PSt.new (I := CIter) (B := DefaultBuilder)
        (lex ascii ("a b".toList ++ e.toList)) ())⟩).bind firstWords) = some 3 := by decide +kernel
    exact this e he
  obtain ⟨cs', h3, h4⟩ := Option.bind_eq_some_iff.1 k
  refine ⟨cs', script_sound h3, ?_⟩
  rintro rfl
  rw [h2] at h4
  cases h4

end Conch
