import Verif.PropsAppend
/-!
# C65: a text can be lexed line by line
-/
namespace Conch
open Spec Gram

section
variable {cc : CharClass}

theorem splitOn_cut {α : Type} [BEq α] [LawfulBEq α] {a : α} {l r : List α} (h : a ∉ l) :
    (l ++ a :: r).splitOn a = l :: r.splitOn a := by
  induction l with
  | nil => simp [List.splitOn, List.splitOnP_cons_eq_if_modifyHead]
  | cons b l ih =>
    simp only [List.mem_cons, not_or] at h
    have hb : (b == a) = false := by simpa using fun e => h.1 e.symm
    simp only [List.splitOn] at ih ⊢
    rw [List.cons_append, List.splitOnP_cons_eq_if_modifyHead, hb, ih h.2]
    rfl

theorem splitOn_whole {α : Type} [BEq α] [LawfulBEq α] {a : α} {l : List α} (h : a ∉ l) : l.splitOn a = [l] := by
  induction l with
  | nil => simp [List.splitOn]
  | cons b l ih =>
    simp only [List.mem_cons, not_or] at h
    have hb : (b == a) = false := by simpa using fun e => h.1 e.symm
    simp only [List.splitOn] at ih ⊢
    rw [List.splitOnP_cons_eq_if_modifyHead, hb, ih h.2]
    rfl

/-- **C65.** Every token but the newline is part of one line. -/
theorem C65_tokens_within_lines (hs : cc.Sane) (src : Str) (t : Token) (h : t ∈ lex cc src) :
    '\n' ∈ t.asStr ↔ t = .Newline := by
  refine ⟨fun hn => ?_, by rintro rfl; decide⟩
  have sh := C02_token_shapes cc src t h
  have hnc : cc.nameChar '\n' = false := by
    have := (hs.op '\n' (.inl newline_start)).1
    simp only [CharClass.nameChar, CharClass.nameStart, this]
    decide
  have op : ∀ t : Token, (t.asStr, t) ∈ operators ∨ t = .Backslash → '\n' ∈ t.asStr → t = .Newline := by
    intro t ht hn
    rcases ht with ht | rfl
    · have : ∀ p ∈ operators, '\n' ∈ p.1 → p.2 = .Newline := by decide
      exact this _ ht hn
    · revert hn; decide
  cases t
  case Name s =>
    exfalso
    obtain ⟨c, r, rfl, h1, h2⟩ := sh
    have ha := (hs.op '\n' (.inl newline_start)).1
    rcases List.mem_cons.1 hn with rfl | hn
    · rcases h1 with h1 | h1
      · exact absurd h1 (by decide)
      · rw [ha] at h1; cases h1
    · rcases h2 _ hn with h1 | h1 | h1
      · exact absurd h1 (by decide)
      · rw [ha] at h1; cases h1
      · exact absurd h1 (by decide)
  case Literal s =>
    exfalso
    obtain ⟨c, r, -, -, h2⟩ := sh
    exact (h2 _ hn).2.2 newline_start
  case Whitespace s => exact absurd rfl (sh.2 _ hn).2
  all_goals exact op _ sh hn

theorem newline_free {l : Str} (h : '\n' ∉ l) : Token.Newline ∉ lex cc l := by
  intro hn
  have hc := C01_concat_tokens cc l
  refine h ?_
  rw [← hc]
  exact List.mem_flatMap.2 ⟨_, hn, by decide⟩

theorem cut_first {src : Str} (h : '\n' ∈ src) : ∃ l r, src = l ++ '\n' :: r ∧ '\n' ∉ l := by
  obtain ⟨l, r, h1, h2⟩ := List.append_of_mem h |> fun ⟨s, t, e⟩ =>
    (List.eq_append_cons_of_mem h : ∃ l r, src = l ++ '\n' :: r ∧ '\n' ∉ l)
  exact ⟨l, r, h1, h2⟩

/-- **C65.** The tokens between the newlines are the tokens of the lines, each lexed on its own. -/
theorem C65_line_by_line (hs : cc.Sane) (src : Str) :
    (lex cc src).splitOn .Newline = (src.splitOn '\n').map (lex cc) := by
  induction hn : src.length using Nat.strongRecOn generalizing src with
  | ind n ih =>
    by_cases h : '\n' ∈ src
    · obtain ⟨l, r, rfl, hl⟩ := cut_first h
      rw [lex_line hs, splitOn_cut (newline_free hl), splitOn_cut hl, List.map_cons,
        ih r.length (by simp at hn; omega) r rfl]
    · rw [splitOn_whole h, splitOn_whole (newline_free h)]
      rfl

/-- **C65.** Two texts with a newline between them: their tokens with `Newline` between them. -/
theorem C65_newline_separates (hs : cc.Sane) (a b : Str) :
    lex cc (a ++ '\n' :: b) = lex cc a ++ .Newline :: lex cc b := lex_line hs a b

/-- **C65.** There are as many newline tokens before a token as newlines in the text before it: newline
tokens number the lines. -/
theorem C65_newlines_count (hs : cc.Sane) (src : Str) (n : Nat) :
    ((lex cc src).take n).count .Newline = (concatTokens ((lex cc src).take n)).count '\n' := by
  have h : ∀ ts : List Token, (∀ t ∈ ts, t ∈ lex cc src) → ts.count .Newline = (concatTokens ts).count '\n' := by
    intro ts
    induction ts with
    | nil => intro _; rfl
    | cons t ts ih =>
      intro h
      rw [concatTokens_cons, List.count_append, ← ih fun u hu => h u (by simp [hu]), List.count_cons]
      have := C65_tokens_within_lines hs src t (h t (by simp))
      by_cases e : t = .Newline
      · subst e
        simp [show (Token.asStr .Newline).count '\n' = 1 by decide]
        omega
      · have h0 : t.asStr.count '\n' = 0 := List.count_eq_zero.2 fun hn => e (this.1 hn)
        simp [h0, e]
  exact h _ fun t ht => List.mem_of_mem_take ht

/-- **C65.** Blanks separate as well: they are one token, and what is before and after them is lexed on
its own (what is before must not end in a backslash, which takes the first blank, or in a blank). -/
theorem C65_blanks_separate (hs : cc.Sane) (a bl : Str) (d : Char) (b : Str)
    (ha : ∀ c, a.getLast? = some c → c ≠ '\\' ∧ ¬ Blank cc c) (h0 : bl ≠ []) (hb : ∀ c ∈ bl, Blank cc c)
    (hd : ¬ Blank cc d) :
    lex cc (a ++ (bl ++ d :: b)) = lex cc a ++ .Whitespace bl :: lex cc (d :: b) :=
  lex_blanks hs a bl d b ha h0 hb hd

/-- Operator characters that are no part of a longer operator. -/
def Spec.LoneOp (c : Char) : Prop := (∃ t, ([c], t) ∈ operators) ∧ ∀ p ∈ operators, c ∈ p.1 → p.1 = [c]

theorem lone_start {c : Char} (h : Spec.LoneOp c) : opStart c := by
  obtain ⟨⟨t, ht⟩, -⟩ := h
  exact ⟨_, ht, rfl⟩

theorem lone_first {c : Char} (h : Spec.LoneOp c) (rest : Str) :
    Lexes cc (c :: rest) (lexSingle cc c :: lex cc rest) := by
  have hc := lone_start h
  have h' := lexSingle_spec cc c
  generalize lexSingle cc c = t at h'
  cases h' with
  | backslash => exact absurd hc (by unfold opStart; decide)
  | @op _ t ht =>
    refine Lexes.op (o := [c]) ⟨ht, List.prefix_append _ _, fun p hp hpre => ?_⟩ (lex_lexes cc rest)
    by_cases hn : c ∈ p.1
    · rw [h.2 p hp hn]
    · have hne : ∀ p ∈ operators, p.1 ≠ [] := by decide
      obtain ⟨d, ds, hd⟩ := List.exists_cons_of_ne_nil (hne p hp)
      rw [hd] at hpre hn
      obtain ⟨z, hz⟩ := hpre
      cases hz
      simp at hn
  | blank _ h2 => exact absurd hc h2
  | name h2 => exact absurd hc h2.2.1
  | literal h2 => exact absurd hc h2.2.1

theorem lone_separates (hs : cc.Sane) {c : Char} (hc : Spec.LoneOp c) (s rest : Str) :
    lex cc (s ++ c :: rest) = lex cc s ++ lex cc [c] ++ lex cc rest := by
  rw [lex_single, List.append_assoc, List.singleton_append, C03_tokens_iff_grammar]
  have h := lex_lexes cc s
  generalize lex cc s = ts at h
  have hst := lone_start hc
  have hop := hs.op c (.inl hst)
  have hnp : ¬ Plain cc c := fun h => h.2.1 hst
  have hnb : ¬ Blank cc c := fun h => by have := h.1; rw [hop.2 h.2] at this; cases this
  have hnn : ¬ (Plain cc c ∧ cc.nameChar c = true) := fun h => hnp h.1
  induction h with
  | nil => exact lone_first hc rest
  | trailingBackslash => exact .escape (lexSingle_spec cc c) (lex_lexes cc rest)
  | escape h _ ih => exact .escape h ih
  | op h _ ih =>
    rw [List.append_assoc]
    rename_i o t s ts _
    have := longestOp_append (c := c) (rest := rest) h fun p hp hpre => by
      rw [hc.2 p hp (hpre.subset (by simp))]
      obtain ⟨d, ds, r, rfl, -⟩ := longestOp_head h
      simp
    rw [List.append_assoc] at this
    exact .op this ih
  | blank h1 h2 h3 h4 _ ih =>
    rw [List.append_assoc]
    exact .blank h1 h2 h3 (maximalRun_append h4 hnb) ih
  | name h1 h2 h3 _ ih =>
    rw [List.append_assoc]
    exact .name h1 h2 (maximalRun_append h3 hnn) ih
  | literal h1 h2 h3 _ ih =>
    rw [List.append_assoc]
    exact .literal h1 h2 (maximalRun_append h3 hnp) ih

/-- **C65.** The characters at which every text can be cut, whatever is before and after them: exactly
the operators that are no part of a longer one. -/
theorem C65_separators (hs : cc.Sane) (c : Char) :
    (∀ a b, lex cc (a ++ c :: b) = lex cc a ++ lex cc [c] ++ lex cc b) ↔
      c ∈ "\n(){}[]!~#*?%=+:@^/,'\"`".toList := by
  have key : c ∈ "\n(){}[]!~#*?%=+:@^/,'\"`".toList → Spec.LoneOp c := by
    have : ∀ c ∈ "\n(){}[]!~#*?%=+:@^/,'\"`".toList,
        (operators.any fun p => p.1 == [c]) = true ∧ ∀ p ∈ operators, c ∈ p.1 → p.1 = [c] := by decide +kernel
    intro h
    obtain ⟨h1, h2⟩ := this c h
    rw [List.any_eq_true] at h1
    obtain ⟨⟨o, t⟩, hp, he⟩ := h1
    obtain rfl : o = [c] := by simpa using he
    exact ⟨⟨t, hp⟩, h2⟩
  refine ⟨fun h => ?_, fun h => lone_separates hs (key h)⟩
  by_contra hc
  have two : ∀ ts : List Token, Lexes cc [c, c] ts → ts.length = 2 := by
    intro ts ht
    have h2 := h [c] []
    rw [lex_single] at h2
    rw [← (C03_tokens_iff_grammar _ _ _).2 ht]
    rw [show [c] ++ [c] = [c, c] from rfl] at h2
    rw [h2]
    simp [show lex cc [] = [] from (C03_tokens_iff_grammar _ _ _).2 .nil]
  by_cases hst : opStart c
  · have hm : c ∈ ['-', ';', '&', '|', '<', '>', '$'] := by
      rw [opStart_iff] at hst
      revert hc
      generalize e : "\n(){}[]!~#*?%=+:@^/,'\"`".toList = l
      intro hc
      by_contra hm
      have : ∀ d ∈ (['\n', '!', '~', '#', '*', '?', '%', '-', '=', '+', ':', '@', '^', '/', ',', '\'',
          '"', '`', '(', ')', '{', '}', '[', ']'] ++ [';', '&', '|', '<', '>', '$'] : List Char),
          d ∈ "\n(){}[]!~#*?%=+:@^/,'\"`".toList ∨ d ∈ ['-', ';', '&', '|', '<', '>', '$'] := by decide +kernel
      rcases this c (List.mem_append.2 hst) with h | h
      · exact hc (e ▸ h)
      · exact hm h
    have len1 : ∀ d, (lex cc [d]).length = 1 := by intro d; rw [lex_single]; rfl
    have len0 : lex cc [] = [] := (C03_tokens_iff_grammar _ _ _).2 .nil
    have one : ∀ (o : Str) (t : Token), LongestOp o o t → lex cc o = [t] := by
      intro o t ho
      refine (C03_tokens_iff_grammar cc _ _).2 ?_
      have := Lexes.op (cc := cc) (o := o) (s := []) (by simpa using ho) .nil
      rwa [List.append_nil] at this
    have op : ∀ (a b : Str) (t : Token), LongestOp (a ++ c :: b) (a ++ c :: b) t →
        (lex cc a).length + (lex cc b).length = 0 := by
      intro a b t ho
      have h1 := congrArg List.length (h a b)
      rw [one _ t ho] at h1
      simp [len1] at h1
      omega
    simp only [List.mem_cons, List.not_mem_nil, or_false] at hm
    rcases hm with rfl | rfl | rfl | rfl | rfl | rfl | rfl
    · have := op ['<', '<'] [] .DLessDash ⟨by decide, by decide, by decide⟩
      rw [one ['<', '<'] .DLess ⟨by decide, by decide, by decide⟩] at this
      simp at this
    · have := op [';'] [] .DSemi ⟨by decide, by decide, by decide⟩
      simp [len1] at this
    · have := op ['&'] [] .AndIf ⟨by decide, by decide, by decide⟩
      simp [len1] at this
    · have := op ['|'] [] .OrIf ⟨by decide, by decide, by decide⟩
      simp [len1] at this
    · have := op ['<'] [] .DLess ⟨by decide, by decide, by decide⟩
      simp [len1] at this
    · have := op ['>'] [] .DGreat ⟨by decide, by decide, by decide⟩
      simp [len1] at this
    · have := op [] ['1'] (.ParamPositional .One) ⟨by decide, by decide, by decide⟩
      simp [len1] at this
  · by_cases hb : c = '\\'
    · subst hb
      have h1 := congrArg List.length (h [] [';', ';'])
      have h2 : lex cc [';', ';'] = [.DSemi] := by
        refine (C03_tokens_iff_grammar cc _ _).2 ?_
        exact Lexes.op (cc := cc) (o := [';', ';']) (s := []) ⟨by decide, by decide, by decide⟩ .nil
      rw [List.nil_append, C03_escape_protects_one, h2, lex_single, lex_single,
        (C03_tokens_iff_grammar _ _ _).2 .nil] at h1
      simp at h1
    · by_cases hw : cc.whitespace c = true
      · have hbl : Blank cc c := ⟨hw, fun e => hst (e ▸ newline_start)⟩
        have := two [.Whitespace [c, c]] (.blank (run := [c]) (s := []) hb hst hw ⟨by simpa using hbl, by simp⟩ .nil)
        simp at this
      · have hp : Plain cc c := ⟨hb, hst, by simpa using hw⟩
        by_cases hn : cc.nameStart c = true
        · have := two [.Name [c, c]] (.name (run := [c]) (s := []) hp hn
            ⟨by simpa [CharClass.nameChar, hn] using hp, by simp⟩ .nil)
          simp at this
        · have := two [.Literal [c, c]] (.literal (run := [c]) (s := []) hp (by simpa using hn) ⟨by simpa using hp, by simp⟩ .nil)
          simp at this

end

example : (lex ascii "if x\\\nthen # a\n\ny".toList).splitOn .Newline =
    [[.Name "if".toList, .Whitespace [' '], .Name ['x'], .Backslash], [.Name "then".toList, .Whitespace [' '], .Pound, .Whitespace [' '], .Name ['a']],
     [], [.Name ['y']]] := by decide +kernel

end Conch
