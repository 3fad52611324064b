import Verif.GramHere
import Verif.PartSpec
/-!
# Scanning here-documents: the delimiter never fails, the lines are taken from the stream
-/
namespace Conch
open Spec

/-! ## Units -/

theorem Spec.Units.append {u v r : List PTok} (h : Units u (v ++ r)) (h' : Units v r) :
    Units (u ++ v) r := by
  generalize hw : v ++ r = w at h
  induction h with
  | nil => exact h'
  | cons h1 h2 h3 _ ih =>
    subst hw
    rw [List.append_assoc]
    exact .cons h1 h2 (by simpa using h3) (ih rfl)

theorem Spec.Units.one {u r : List PTok} (h1 : u ≠ []) (h2 : ∀ p, u ≠ [(p, .Newline)])
    (h3 : TopUnit u r) : Units u r := by
  have := Units.cons (v := []) h1 h2 h3 .nil
  simpa using this

theorem ordinary_ws (w : Str) : Ordinary none (.Whitespace w) :=
  ⟨by simp, by simp, by rintro c' ⟨⟩⟩

theorem ordinary_newline : Ordinary none .Newline :=
  ⟨by simp, by simp, by rintro c' ⟨⟩⟩

theorem Spec.Blanks.units {bs r : List PTok} (h : Blanks bs) : Units bs r := by
  induction h with
  | nil => exact .nil
  | @ws p w _ _ ih => exact .cons (u := [(p, .Whitespace w)]) (by simp) (by simp) (.plain (ordinary_ws _)) ih
  | @escaped p q _ _ ih =>
    exact .cons (u := [(p, .Backslash), (q, .Newline)]) (by simp) (by simp) .escape ih

/-! ## The delimiter -/

/-- The tokens of a sequence of units have a meaning as a delimiter. -/
def Means (l : List Token) : Prop := ∃ q s, Gram.DelimText l q s

theorem Means.nil : Means [] := ⟨_, _, .nil⟩
theorem Means.escaped {t : Token} {u : List Token} (h : Means u) : Means (.Backslash :: t :: u) :=
  let ⟨_, _, h⟩ := h; ⟨_, _, .escaped h⟩
theorem Means.single {x u : List Token} (hx : ∀ t ∈ x, t ≠ .SingleQuote) (h : Means u) :
    Means (.SingleQuote :: x ++ .SingleQuote :: u) :=
  let ⟨_, _, h⟩ := h; ⟨_, _, .single hx h⟩
theorem Means.double {x u : List Token} (hx : Body .DoubleQuote (Gram.anywhere x)) (h : Means u) :
    Means (.DoubleQuote :: x ++ .DoubleQuote :: u) :=
  let ⟨_, _, h⟩ := h; ⟨_, _, .double hx h⟩
theorem Means.backtick {x u : List Token} (hx : Body .Backtick (Gram.anywhere x)) (h : Means u) :
    Means (.Backtick :: x ++ .Backtick :: u) :=
  let ⟨_, _, h⟩ := h; ⟨_, _, .backtick hx h⟩
theorem Means.plain {t : Token} {u : List Token} (ht : t ∉ [Token.Backslash, .SingleQuote, .DoubleQuote, .Backtick])
    (h : Means u) : Means (t :: u) :=
  let ⟨_, _, h⟩ := h; ⟨_, _, .plain ht h⟩

theorem body_single {xs : List PTok} (h : Body .SingleQuote xs) : ∀ t ∈ xs.map (·.2), t ≠ .SingleQuote := by
  generalize hc : Token.SingleQuote = c at h
  induction h with
  | nil => simp
  | quoted h1 _ ih => simp at ih ⊢; exact ⟨h1, ih⟩
  | plain h | escape h | nested h | brace h | dollar h => exact absurd hc.symm h

theorem means_region {c o : Token} {xs : List PTok} {u : List Token} {c0 : Option Token} (ho : Opens c0 o c)
    (hb : Body c xs) (hn : c = .ParenClose → ∀ v, Means v → Means (xs.map (·.2) ++ v)) (hu : Means u) :
    Means (o :: (xs.map (·.2) ++ c :: u)) := by
  cases ho with
  | backtick => exact .backtick (Gram.same_body (Gram.same_anywhere xs).symm hb) hu
  | squote => exact .single (body_single hb) hu
  | dquote => exact .double (Gram.same_body (Gram.same_anywhere xs).symm hb) hu
  | paren => exact .plain (by simp) (hn rfl _ (.plain (by simp) hu))

theorem opens_of_special {c0 : Option Token} {t : Token} (h : t ∈ [Token.SingleQuote, .DoubleQuote, .Backtick])
    (hc : c0 ≠ some .DoubleQuote) : ∃ c, Opens c0 t c := by
  simp at h
  rcases h with rfl | rfl | rfl
  · exact ⟨_, .squote hc⟩
  · exact ⟨_, .dquote⟩
  · exact ⟨_, .backtick⟩

theorem ordinary_means {c0 : Option Token} {t : Token} (h : Ordinary c0 t) (hc : c0 ≠ some .DoubleQuote) :
    t ∉ [Token.Backslash, .SingleQuote, .DoubleQuote, .Backtick] := by
  intro ht
  rcases List.mem_cons.1 ht with rfl | ht
  · exact h.1 rfl
  · obtain ⟨c, ho⟩ := opens_of_special (c0 := c0) ht hc
    exact h.2.2 c ho

theorem body_means {c : Token} {xs : List PTok} (h : Body c xs) (hc : c = .ParenClose ∨ c = .CurlyClose)
    {v : List Token} (hv : Means v) : Means (xs.map (·.2) ++ v) := by
  induction h generalizing v with
  | nil => exact hv
  | quoted => simp at hc
  | plain h1 h2 h3 _ ih =>
    exact .plain (ordinary_means h3 (by rcases hc with rfl | rfl <;> simp)) (ih hc hv)
  | escape _ _ ih => exact .escaped (ih hc hv)
  | @nested c c' o xs q ys h1 h2 h3 h4 h5 ih1 ih2 =>
    have := means_region h3 h4 (fun h v hv => ih1 (.inl h) hv) (ih2 hc hv)
    simpa using this
  | @brace c p q r xs ys h1 h2 h3 ih1 ih2 =>
    have := Means.plain (t := .Dollar) (by simp) (.plain (t := .CurlyOpen) (by simp)
      (ih1 (.inr rfl) (.plain (t := .CurlyClose) (by simp) (ih2 hc hv))))
    simpa using this
  | dollar h1 _ _ ih => exact .plain (by simp) (ih hc hv)

theorem unit_means {u r : List PTok} (h : TopUnit u r)
    {v : List Token} (hv : Means v) (hlast : r = [] → v = []) : Means (u.map (·.2) ++ v) := by
  cases h with
  | empty => exact hv
  | plain h => exact .plain (ordinary_means h (by simp)) hv
  | escape => exact .escaped hv
  | lastBackslash => rw [hlast rfl]; exact ⟨_, _, .lastBackslash⟩
  | @nested c o xs q _ h1 h2 =>
    have := means_region h1 h2 (fun h v hv => body_means h2 (.inl h) hv) hv
    simpa using this
  | @brace p q r xs _ h =>
    have := Means.plain (t := .Dollar) (by simp) (.plain (t := .CurlyOpen) (by simp)
      (body_means h (.inr rfl) (.plain (t := .CurlyClose) (by simp) hv)))
    simpa using this
  | @dollarParen p q r xs _ h =>
    have := Means.plain (t := .Dollar) (by simp) (.plain (t := .ParenOpen) (by simp)
      (body_means h (.inl rfl) (.plain (t := .ParenClose) (by simp) hv)))
    simpa using this
  | dollar => exact .plain (by simp) hv

theorem units_means {u r : List PTok} (h : Units u r) : Means (u.map (·.2)) := by
  induction h with
  | nil => exact .nil
  | @cons u v r h1 h2 h3 _ ih =>
    rw [List.map_append]
    refine unit_means h3 ih ?_
    intro h; simp at h; simp [h.1]

/-- The meaning of a delimiter is computed without an error. -/
theorem delim_total {B : Builder} {u : List Token} (h : Means u) (b : B.State) (x : Bool × Str) :
    ∃ y it, loop delimBody x ⟨AIter.ofTokens u, b⟩ = (.ok y, ⟨it, b⟩) := by
  obtain ⟨q, s, h⟩ := h
  obtain ⟨R, e, -, h⟩ := (Gram.lrun_delim h b x.1 x.2).run (AIter.ofTokens u).rest (AIter.ofTokens u).endPos
    (Gram.ofTokens_toks u)
  exact ⟨_, _, h⟩

/-! ## The lines -/

theorem split_newline (l : List PTok) : (∀ t ∈ l, t.2 ≠ .Newline) ∨
    ∃ c q r, l = c ++ (q, .Newline) :: r ∧ ∀ t ∈ c, t.2 ≠ .Newline := by
  induction l with
  | nil => exact .inl (by simp)
  | cons x l ih =>
    obtain ⟨p, t⟩ := x
    by_cases ht : t = .Newline
    · subst ht
      exact .inr ⟨[], p, l, rfl, by simp⟩
    · rcases ih with h | ⟨c, q, r, rfl, h⟩
      · left; intro y hy; rcases List.mem_cons.1 hy with rfl | hy
        · exact ht
        · exact h y hy
      · refine .inr ⟨(p, t) :: c, q, r, rfl, ?_⟩
        intro y hy; rcases List.mem_cons.1 hy with rfl | hy
        · exact ht
        · exact h y hy

theorem body_total {B : Builder} (strip : Bool) (delim : Str) (e : SourcePos) (b : B.State) (n : Nat) :
    ∀ l : List PTok, l.length ≤ n → ∀ acc, ∃ cs r,
      LoopRun (heredocBody strip delim) acc (st l e b) (.ok (acc ++ cs), st r e b) ∧
      BodyLines strip e l cs r := by
  have key : ∀ {acc : List (List Token × SourcePos)} {C L : List PTok} {a R},
      (∀ t ∈ C, t.2 ≠ .Newline) → Gram.LineEnd strip delim e b (Gram.lineOf strip (C.map (·.2))) L a R →
      ∃ a' : Option (List Token × SourcePos), a'.map Prod.fst = a ∧
        (∀ x, a' = some x → x.2 = (AIter.pos ⟨C ++ L, e⟩).advanceTabs (Gram.cut strip (C.map (·.2)))) ∧
        heredocBody strip delim acc (st (C ++ L) e b) =
        (match a' with
          | none => (.ok (.done acc), st R e b)
          | some x => (.ok (.cont (acc ++ [x])), st R e b)) := by
    intro acc C L a R hC h
    obtain ⟨a', h1, hq, h2⟩ := Gram.lineBody_run C hC [] (by simpa using h) (AIter.pos ⟨C ++ L, e⟩)
    refine ⟨a', h1, hq, ?_⟩
    unfold heredocBody
    rw [getPos_bind, bind_ok h2.loop]
    cases a' <;> rfl
  induction n with
  | zero =>
    intro l hl acc
    obtain rfl : l = [] := by simpa using hl
    obtain ⟨a', h1, -, h2⟩ := key (acc := acc) (C := []) (L := []) (by simp)
      (.eofDelim (.inr (by cases strip <;> rfl)))
    cases a' with
    | some x => cases h1
    | none => exact ⟨[], [], by simpa using LoopRun.done h2, .eof (by simp)⟩
  | succ n ih =>
    intro l hl acc
    rcases split_newline l with hc | ⟨c, q, r, rfl, hc⟩
    · by_cases hd : Gram.IsDelim delim (Gram.lineOf strip (l.map (·.2))) ∨ Gram.lineOf strip (l.map (·.2)) = []
      · obtain ⟨a', h1, -, h2⟩ := key (acc := acc) (C := l) (L := []) hc (.eofDelim hd)
        cases a' with
        | some x => cases h1
        | none => exact ⟨[], [], by simpa using LoopRun.done h2, .eof hc⟩
      · obtain ⟨a', h1, hq, h2⟩ := key (acc := acc) (C := l) (L := []) hc
          (.eof (fun h => hd (.inl h)) (fun h => hd (.inr h)))
        cases a' with
        | none => cases h1
        | some x =>
          obtain ⟨t, p⟩ := x
          cases h1
          simp only [List.append_nil] at h2 hq
          have hne : l ≠ [] := by
            rintro rfl
            exact hd (.inr (by cases strip <;> rfl))
          obtain ⟨a', h1, -, h3⟩ := key (acc := acc ++ [(_, p)]) (C := []) (L := []) (by simp)
            (.eofDelim (.inr (by cases strip <;> rfl)))
          cases a' with
          | some x => cases h1
          | none =>
            refine ⟨[(_, p)], [], .cont h2 ?_ (.done h3), .lastLine hc (hq _ rfl)⟩
            have := List.length_pos_iff.2 hne
            simpa using this
    · by_cases hd : Gram.IsDelim delim (Gram.lineOf strip (c.map (·.2)))
      · obtain ⟨a', h1, -, h2⟩ := key (acc := acc) hc (.newlineDelim (q := q) (R := r) hd)
        cases a' with
        | some x => cases h1
        | none => exact ⟨[], r, by simpa using LoopRun.done h2, .delim hc⟩
      · obtain ⟨a', h1, hq, h2⟩ := key (acc := acc) hc (.newline (q := q) (R := r) hd)
        cases a' with
        | none => cases h1
        | some x =>
          obtain ⟨t, p⟩ := x
          cases h1
          obtain ⟨cs, r', h3, h4⟩ := ih r (by simp at hl; omega) (acc ++ [(_, p)])
          refine ⟨(_, p) :: cs, r', .cont h2 (by simp; omega) ?_, .line hc (hq _ rfl) h4⟩
          simpa using h3

theorem lines_total {B : Builder} (strip : Bool) (delim : Str) (l : List PTok) (e : SourcePos) (b : B.State) :
    ∃ cs r, loop (heredocBody strip delim) [] (st l e b) = (.ok cs, st r e b) ∧
      BodyLines strip e l cs r := by
  obtain ⟨cs, r, h1, h2⟩ := body_total strip delim e b _ l (Nat.le_refl _) []
  exact ⟨cs, r, h1.loop, h2⟩

theorem Spec.BodyLines.suffix {strip : Bool} {e : SourcePos} {l r : List PTok} {cs} (h : BodyLines strip e l cs r) :
    ∃ xs, l = xs ++ r ∧ (cs.flatMap (·.1)).length ≤ xs.length := by
  have hl : ∀ c : List Token, (Gram.lineOf strip c).length ≤ c.length := by
    intro c; cases strip
    · exact Nat.le_refl _
    · exact Gram.stripLine_le c
  induction h with
  | @delim c q r h => exact ⟨c ++ [(q, .Newline)], by simp, by simp⟩
  | @eof c h => exact ⟨c, by simp, by simp⟩
  | @line c q l p cs r h1 h2 _ ih =>
    obtain ⟨xs, rfl, ih⟩ := ih
    refine ⟨c ++ (q, .Newline) :: xs, by simp, ?_⟩
    have := hl (c.map (·.2))
    simp at this ih ⊢
    omega
  | @lastLine c p h1 h2 =>
    have := hl (c.map (·.2))
    exact ⟨c, by simp, by simpa using this⟩

end Conch
