import Verif.LocalLex
/-!
# Replacing what follows a newline: here-documents

The probe `k` stands alone on the last line. Either a here-document takes it, or the here-document
ends before it and is the same whatever stands in place of the probe.
-/
namespace Conch.Gram
open Conch

/-- The probe is a name, alone on its line. -/
def Probe (z : Option Token) (t1 : List Token) : Prop := ∀ k, z = some k → (∃ w, k = .Name w) ∧ t1 = [k]

section
variable {k : Token} {u l y r : List Token}

theorem anywhere_inj {u v : List Token} (h : anywhere u = anywhere v) : u = v := by
  have := congrArg (List.map (·.2)) h
  simpa [anywhere, Function.comp_def] using this

theorem split_last {c : Token} {u0 : List Token} (h : u0 ++ c :: l = y ++ [.Newline, k]) (h1 : c ≠ .Newline) (h2 : c ≠ k) :
    ∃ y2, l = y2 ++ [.Newline, k] ∧ y = u0 ++ c :: y2 := by
  rcases List.eq_nil_or_concat l with rfl | ⟨l, a, rfl⟩
  · have : u0 ++ [c] = (y ++ [.Newline]) ++ [k] := by simpa using h
    have := (List.append_inj' this rfl).2
    simp at this
    exact absurd this h2
  · have : (u0 ++ c :: l) ++ [a] = (y ++ [.Newline]) ++ [k] := by simpa using h
    obtain ⟨h3, h4⟩ := List.append_inj' this rfl
    simp at h4
    subst h4
    rcases List.eq_nil_or_concat l with rfl | ⟨l, a', rfl⟩
    · have := (List.append_inj' h3 rfl).2
      simp at this
      exact absurd this h1
    · have : (u0 ++ c :: l) ++ [a'] = y ++ [.Newline] := by simpa using h3
      obtain ⟨h5, h4⟩ := List.append_inj' this rfl
      simp at h4
      subst h4
      exact ⟨l, by simp, h5.symm⟩

theorem opens_closer {o c : Token} (h : Spec.Opens none o c) : c ≠ .Newline ∧ (∀ w, c ≠ .Name w) ∧ c ≠ .Backslash := by
  cases h <;> simp

theorem escape_probe {t : Token} {w : Str} (h : [.Backslash, t] ++ l = y ++ [.Newline, .Name w]) (hy : y.getLast? ≠ some .Backslash) :
    ∃ y2, l = y2 ++ [.Newline, .Name w] ∧ y = [.Backslash, t] ++ y2 := by
  match y with
  | [] => simp at h
  | [a] => simp at h; simp [← h.1] at hy
  | a :: b :: y => simp at h; exact ⟨y, h.2.2, by simp [h.1, h.2.1]⟩

/-- What is known about a unit before the probe. -/
theorem unit_probe (hk : ∃ w, k = .Name w) (hu : Spec.TopUnit (anywhere u) (anywhere l))
    (h : u ++ l = y ++ [.Newline, k]) (hy : y.getLast? ≠ some .Backslash) (hn : ∀ u', u ≠ .Newline :: u') :
    (∃ y2, l = y2 ++ [.Newline, k] ∧ y = u ++ y2) ∧ (u.getLast? = some .Backslash → [Token.Backslash, .Backslash] <:+ u) := by
  obtain ⟨w, rfl⟩ := hk
  have last : ∀ (u0 : List Token) (c : Token), u = u0 ++ [c] → c ≠ .Newline → (∀ w, c ≠ .Name w) → c ≠ .Backslash →
      (∃ y2, l = y2 ++ [.Newline, .Name w] ∧ y = u ++ y2) ∧ (u.getLast? = some .Backslash → [Token.Backslash, .Backslash] <:+ u) := by
    rintro u0 c rfl h1 h2 h3
    obtain ⟨y2, h4, h5⟩ := split_last (u0 := u0) (c := c) (by simpa using h) h1 (h2 w)
    exact ⟨⟨y2, h4, by simpa using h5⟩, by simp [h3]⟩
  have one : ∀ t, u = [t] → t ≠ .Backslash →
      (∃ y2, l = y2 ++ [.Newline, .Name w] ∧ y = u ++ y2) ∧ (u.getLast? = some .Backslash → [Token.Backslash, .Backslash] <:+ u) := by
    rintro t rfl ht
    refine ⟨?_, by simp [ht]⟩
    cases y with
    | nil => simp at h; exact absurd (by rw [h.1]) (hn [])
    | cons a y => simp at h; exact ⟨y, h.2, by simp [h.1]⟩
  have hu' : u = (anywhere u).map (·.2) := by simp [anywhere, Function.comp_def]
  generalize hU : anywhere u = U at hu hu'
  generalize hL : anywhere l = L at hu
  cases hu with
  | empty => simp at hu'; subst hu'; exact ⟨⟨y, h, rfl⟩, by simp⟩
  | @plain t _ ho => exact one t.2 (by simpa using hu') ho.1
  | @escape p t _ =>
    simp at hu'
    subst hu'
    exact ⟨escape_probe h hy, fun ht => by simp at ht; rw [ht]; exact List.suffix_refl _⟩
  | lastBackslash =>
    have : l = [] := by simpa [anywhere] using hL
    subst this
    simp at hu'
    subst hu'
    have := congrArg List.length h
    simp at this
  | @nested c o xs q _ ho hb =>
    obtain ⟨h1, h2, h3⟩ := opens_closer ho
    exact last (o.2 :: xs.map (·.2)) c (by simpa using hu') h1 h2 h3
  | @brace p q s xs _ hb => exact last (.Dollar :: .CurlyOpen :: xs.map (·.2)) .CurlyClose (by simpa using hu') (by simp) (by simp) (by simp)
  | @dollarParen p q s xs _ hb => exact last (.Dollar :: .ParenOpen :: xs.map (·.2)) .ParenClose (by simpa using hu') (by simp) (by simp) (by simp)
  | @dollar p _ h1 h2 => exact one .Dollar (by simpa using hu') (by simp)

theorem unit_after {l' : List Token} (hu : Spec.TopUnit (anywhere u) (anywhere l)) (hne : l ≠ []) (hh : l.head? = l'.head?) :
    Spec.TopUnit (anywhere u) (anywhere l') := by
  have hh' : ((anywhere l).head?).map (·.2) = ((anywhere l').head?).map (·.2) := by
    cases l <;> cases l' <;> simp_all [anywhere]
  have hne' : anywhere l ≠ [] := by simpa [anywhere] using hne
  generalize anywhere u = U at *
  generalize anywhere l = L at *
  cases hu with
  | empty => exact absurd rfl hne'
  | plain ho => exact .plain ho
  | escape => exact .escape
  | lastBackslash => exact absurd rfl hne'
  | nested ho hb => exact .nested ho hb
  | brace hb => exact .brace hb
  | dollarParen hb => exact .dollarParen hb
  | dollar h1 h2 => exact .dollar (by rw [← hh']; exact h1) (by rw [← hh']; exact h2)

theorem head_probe {t2 : List Token} : (y ++ [.Newline, k]).head? = (y ++ .Newline :: t2).head? := by
  cases y <;> simp

theorem last_suffix {v : List Token} (h : (v ++ y).getLast? ≠ some .Backslash) : y.getLast? ≠ some .Backslash := by
  intro h'; apply h; rw [List.getLast?_append, h']; rfl

theorem skip_probe {t1 : List Token} (hs : Skip (y ++ .Newline :: t1) r) (hy : y.getLast? ≠ some .Backslash) :
    ∃ bs y2, y = bs ++ y2 ∧ r = y2 ++ .Newline :: t1 ∧ Blanks bs := by
  obtain ⟨bs, h, hb, -⟩ := hs
  induction hb generalizing y with
  | nil => exact ⟨[], y, rfl, h.symm, .nil⟩
  | @ws w bs hb ih =>
    cases y with
    | nil => simp at h
    | cons a y =>
      simp at h
      obtain ⟨bs', y2, rfl, h2, h3⟩ := ih (last_suffix (v := [a]) hy) h.2
      exact ⟨.Whitespace w :: bs', y2, by simp [h.1], h2, .ws h3⟩
  | @escaped bs hb ih =>
    match y with
    | [] => simp at h
    | [a] => simp at h; simp [h.1] at hy
    | a :: b :: y =>
      simp at h
      obtain ⟨bs', y2, rfl, h2, h3⟩ := ih (last_suffix (v := [a, b]) hy) h.2.2
      exact ⟨.Backslash :: .Newline :: bs', y2, by simp [h.1, h.2.1], h2, .escaped h3⟩

theorem delim_probe (hk : ∃ w, k = .Name w) {v : List Token} (h : DelimToks l v r) (e : l = y ++ [.Newline, k])
    (hy : y.getLast? ≠ some .Backslash) :
    ∃ y2, y = v ++ y2 ∧ r = y2 ++ [.Newline, k] ∧ ∀ t2, DelimToks (y ++ .Newline :: t2) v (y2 ++ .Newline :: t2) := by
  induction h generalizing y with
  | nil h =>
    refine ⟨y, rfl, e, fun t2 => .nil fun t r' ht => ?_⟩
    have := head_probe (k := k) (y := y) (t2 := t2)
    rw [← e, ht] at this
    cases hl : (y ++ [.Newline, k]) with
    | nil => simp at hl
    | cons a l =>
      rw [← e] at hl
      rw [hl] at this
      simp at this
      subst this
      exact h _ _ hl
  | @cons u l v r h1 h2 h3 h4 ih =>
    obtain ⟨⟨y2, rfl, rfl⟩, -⟩ := unit_probe hk h3 e hy (by
      rintro u' rfl
      rcases h2 _ _ rfl with h | h <;> simp [Token.isWordDelimiter] at h)
    obtain ⟨y3, rfl, h6, h7⟩ := ih rfl (last_suffix hy)
    refine ⟨y3, by simp, h6, fun t2 => ?_⟩
    rw [List.append_assoc]
    exact .cons h1 h2 (unit_after h3 (by simp) head_probe) (h7 t2)

theorem rest_probe (hk : ∃ w, k = .Name w) {v : List Token} (h : RestOfLine l v r) (e : l = y ++ [.Newline, k])
    (hy : y.getLast? ≠ some .Backslash) :
    (v = y ++ [.Newline] ∧ r = [k] ∧ ∀ t2, RestOfLine (y ++ .Newline :: t2) v t2) ∨
    ∃ v0 w, v = v0 ++ [.Newline] ∧ y = v0 ++ .Newline :: w ∧ r = w ++ [.Newline, k] ∧
      (v0.getLast? = some .Backslash → [Token.Backslash, .Backslash] <:+ v0) ∧
      ∀ t2, RestOfLine (y ++ .Newline :: t2) v (w ++ .Newline :: t2) := by
  induction h generalizing y with
  | eof => simp at e
  | @newline r =>
    cases y with
    | nil => simp at e; exact .inl ⟨rfl, e, fun t2 => .newline⟩
    | cons a y =>
      simp at e
      obtain ⟨rfl, rfl⟩ := e
      exact .inr ⟨[], y, rfl, rfl, rfl, by simp, fun t2 => .newline⟩
  | @cons u l v r h1 h2 h3 h4 ih =>
    obtain ⟨⟨y2, rfl, rfl⟩, hb⟩ := unit_probe hk h3 e hy h2
    rcases ih rfl (last_suffix hy) with ⟨rfl, h5, h6⟩ | ⟨v0, w, rfl, rfl, h7, h8, h9⟩
    · refine .inl ⟨by simp, h5, fun t2 => ?_⟩
      rw [List.append_assoc]
      exact .cons h1 h2 (unit_after h3 (by simp) head_probe) (h6 t2)
    · refine .inr ⟨u ++ v0, w, by simp, by simp, h7, fun hl => ?_, fun t2 => ?_⟩
      · rcases List.eq_nil_or_concat v0 with rfl | ⟨v1, a, rfl⟩
        · simpa using hb (by simpa using hl)
        · exact (h8 (by simpa using hl)).trans (List.suffix_append _ _)
      · rw [List.append_assoc]
        exact .cons h1 h2 (unit_after h3 (by simp) (by simp)) (h9 t2)

/-- No newline in `c`: it ends before a newline that is in the list. -/
theorem line_split {c w t1 : List Token} (hc : ∀ t ∈ c, t ≠ .Newline) (e : c ++ .Newline :: l = w ++ .Newline :: t1) :
    (c = w ∧ l = t1) ∨ ∃ w2, w = c ++ .Newline :: w2 ∧ l = w2 ++ .Newline :: t1 := by
  rcases List.append_eq_append_iff.1 e with ⟨a, rfl, h⟩ | ⟨a, rfl, h⟩
  · cases a with
    | nil => simp at h; exact .inl ⟨by simp, h⟩
    | cons b a => simp at h; exact .inr ⟨a, by simp [h.1], h.2⟩
  · cases a with
    | nil => simp at h; exact .inl ⟨by simp, h.symm⟩
    | cons b a => simp at h; exact absurd h.1.symm (hc b (by simp))

theorem here_probe {s : Bool} {d : Str} {body w : List Token} (hk : ∃ w, k = .Name w) (h : HereLines s d l body r) (e : l = w ++ [.Newline, k]) :
    r = [] ∨ (r = [k] ∧ ∀ t2, HereLines s d (w ++ .Newline :: t2) body t2) ∨
    ∃ w1 w2, w = w1 ++ .Newline :: w2 ∧ r = w2 ++ [.Newline, k] ∧
      ∀ t2, HereLines s d (w ++ .Newline :: t2) body (w2 ++ .Newline :: t2) := by
  induction h generalizing w with
  | @delim c r h1 h2 =>
    rcases line_split h1 e with ⟨rfl, rfl⟩ | ⟨w2, rfl, rfl⟩
    · exact .inr (.inl ⟨rfl, fun t2 => .delim h1 h2⟩)
    · exact .inr (.inr ⟨c, w2, rfl, rfl, fun t2 => by simpa using HereLines.delim h1 h2⟩)
  | @line c l body r h1 h2 h3 ih =>
    rcases line_split h1 e with ⟨rfl, rfl⟩ | ⟨w2, rfl, rfl⟩
    · left
      obtain ⟨x, rfl⟩ := hk
      generalize hl : [Token.Name x] = l at h3
      cases h3 with
      | @delim c r h1 h2 => cases c <;> simp at hl
      | @line c l b r h1 h2 h3 => cases c <;> simp at hl
      | lastDelim => rfl
      | lastLine => rfl
    · rcases ih rfl with rfl | ⟨rfl, h5⟩ | ⟨w1, w3, rfl, rfl, h5⟩
      · exact .inl rfl
      · exact .inr (.inl ⟨rfl, fun t2 => by simpa using HereLines.line h1 h2 (h5 t2)⟩)
      · exact .inr (.inr ⟨c ++ .Newline :: w1, w3, by simp, rfl, fun t2 => by simpa using HereLines.line h1 h2 (h5 t2)⟩)
  | lastDelim => exact .inl rfl
  | lastLine => exact .inl rfl

theorem probe_infix {v w w1 w2 : List Token} (h : ¬ [Token.Backslash, .Backslash, .Newline] <:+: v ++ .Newline :: (w1 ++ .Newline :: w2)) :
    ¬ [Token.Backslash, .Backslash, .Newline] <:+: v ++ .Newline :: w2 := by
  rintro ⟨a, b, e⟩
  apply h
  have e' : (a ++ [.Backslash, .Backslash]) ++ .Newline :: b = v ++ .Newline :: w2 := by simpa using e
  rcases List.append_eq_append_iff.1 e' with ⟨c, hc, h2⟩ | ⟨c, hc, h2⟩
  · cases c with
    | nil => exact ⟨a, w1 ++ .Newline :: w2, by simp at hc; simp [hc]⟩
    | cons x c =>
      simp at h2
      refine ⟨a, c ++ .Newline :: (w1 ++ .Newline :: w2), ?_⟩
      rw [hc, h2.1]; simp
  · rcases List.eq_nil_or_concat c with rfl | ⟨c, x, rfl⟩
    · exact ⟨a, w1 ++ .Newline :: w2, by simp at hc; simp [← hc]⟩
    · cases c with
      | nil => simp at h2; exfalso
               have := List.append_inj' (show (a ++ [.Backslash]) ++ [.Backslash] = v ++ [x] by simpa using hc) rfl
               simp at this
               rw [← h2.1] at this
               simp at this
      | cons y c =>
        simp at h2
        obtain ⟨rfl, h2⟩ := h2
        cases c with
        | nil =>
          exfalso
          have := List.append_inj' (show a ++ [.Backslash, .Backslash] = v ++ [.Newline, x] by simpa using hc) rfl
          simp at this
        | cons y' c =>
          rcases List.eq_nil_or_concat c with rfl | ⟨c, x', rfl⟩
          · have := List.append_inj' (show a ++ [.Backslash, .Backslash] = (v ++ [.Newline]) ++ [y', x] by simpa using hc) rfl
            simp at this
            exact ⟨v ++ .Newline :: w1 ++ [.Newline], b, by simp [h2, ← this.2.1, ← this.2.2]⟩
          · have h3 : a ++ [.Backslash, .Backslash] = (v ++ .Newline :: y' :: c) ++ [x', x] := by simpa using hc
            have := List.append_inj' h3 rfl
            simp at this
            refine ⟨v ++ .Newline :: w1 ++ .Newline :: y' :: c, b, ?_⟩
            simp [h2, ← this.2.1, ← this.2.2]

/-- Either the here-document takes the probe, or it is the same with anything else in its place. -/
theorem here_ends {t : Token} {w : Str} {t2 l l' l1 l2 l3 u saved body r : List Token} {s : Bool} {d : Str}
    (e : Ends (some (.Name w)) [.Name w] t2 (t :: l) l') (ht : t ≠ .Newline) (ht' : t ≠ .Backslash)
    (h1 : Skip l l1) (h2 : DelimToks l1 u l2) (h3 : RestOfLine l2 saved l3) (h4 : HereLines s d l3 body r) :
    live (some (.Name w)) (saved ++ r) = 0 ∨
    ∃ l0' l1' l2' l3' r', l' = t :: l0' ∧ Skip l0' l1' ∧ DelimToks l1' u l2' ∧ RestOfLine l2' saved l3' ∧
      HereLines s d l3' body r' ∧ Ends (some (.Name w)) [.Name w] t2 (saved ++ r) (saved ++ r') := by
  have hk : ∃ v, Token.Name w = .Name v := ⟨w, rfl⟩
  obtain ⟨l0', rfl, e1⟩ := e.cons_ne ht
  obtain ⟨x0, hx0, rfl, rfl⟩ := e1
  obtain ⟨bs, x1, rfl, rfl, hb⟩ := skip_probe h1 hx0.last
  have hx1 := hx0.suffix
  obtain ⟨x2, rfl, rfl, hd⟩ := delim_probe hk h2 rfl hx1.last
  have hx2 := hx1.suffix
  have hskip : Skip ((bs ++ (u ++ x2)) ++ .Newline :: t2) ((u ++ x2) ++ .Newline :: t2) := by
    have e2 : Ends (some (.Name w)) [.Name w] t2 ((u ++ x2) ++ [.Newline, .Name w]) ((u ++ x2) ++ .Newline :: t2) :=
      ⟨_, hx1, rfl, rfl⟩
    refine ⟨bs, by simp, hb, e2.noBlank ?_⟩
    exact h1.noBlank
  rcases rest_probe hk h3 rfl hx2.last with ⟨rfl, rfl, -⟩ | ⟨v0, w0, rfl, rfl, rfl, hl, hr⟩
  · left
    have : r = [] := by
      generalize hl : [Token.Name w] = l at h4
      cases h4 with
      | @delim c r h1 h2 => cases c <;> simp at hl
      | @line c l b r h1 h2 h3 => cases c <;> simp at hl
      | lastDelim => rfl
      | lastLine => rfl
    subst this
    have := hx2.fresh _ rfl
    simp [live, this]
  · have hfr := hx2.fresh _ rfl
    simp only [List.mem_append, List.mem_cons, not_or] at hfr
    have hlast : v0.getLast? ≠ some .Backslash := by
      intro h5
      obtain ⟨a, ha⟩ := hl h5
      exact hx2.lines _ rfl ⟨a, w0, by rw [← ha]; simp⟩
    rcases here_probe hk h4 rfl with rfl | ⟨rfl, hh⟩ | ⟨w1, w2, rfl, rfl, hh⟩
    · left
      simp [live, hfr.1]
    · refine .inr ⟨_, _, _, _, t2, rfl, hskip, hd t2, hr t2, hh t2, v0, ⟨by simp, hlast, ?_, ?_⟩, by simp, by simp⟩
      · rintro k ⟨⟩; exact hfr.1
      · rintro k ⟨⟩ h6
        exact hx2.lines _ rfl (h6.trans (List.prefix_append _ _).isInfix)
    · refine .inr ⟨_, _, _, _, w2 ++ .Newline :: t2, rfl, hskip, hd t2, hr t2, hh t2, v0 ++ .Newline :: w2, ⟨by simp, ?_, ?_, ?_⟩, by simp, by simp⟩
      · rcases List.eq_nil_or_concat w2 with rfl | ⟨w3, a, rfl⟩
        · simp
        · have := hx2.last
          rw [show v0 ++ .Newline :: (w1 ++ .Newline :: w3.concat a) = (v0 ++ .Newline :: (w1 ++ .Newline :: w3)) ++ [a] by simp] at this
          rw [show v0 ++ .Newline :: w3.concat a = (v0 ++ .Newline :: w3) ++ [a] by simp]
          simpa only [List.getLast?_concat] using this
      · rintro k ⟨⟩
        simp only [List.mem_append, List.mem_cons, not_or] at hfr ⊢
        exact ⟨hfr.1, hfr.2.1, hfr.2.2.2.2⟩
      · rintro k ⟨⟩
        exact probe_infix (w := []) (hx2.lines _ rfl)
end

end Conch.Gram
