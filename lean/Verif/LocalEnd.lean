import Verif.Local
/-!
# Only separators consume a newline
-/
namespace Conch.Gram
open Conch

/-- The newline before `t1` is ahead. -/
def Ahead (z : Option Token) (t1 l : List Token) : Prop := Ends z t1 t1 l l

/-- The newline before `t1` is ahead, or it was passed together with something after it. -/
structure Strict (z : Option Token) (t1 l : List Token) : Prop where
  probe : Probe z t1
  or : Ahead z t1 l ∨ live z l < t1.length

/-- The newline before `t1` is ahead or was passed. -/
structure Weak (z : Option Token) (t1 l : List Token) : Prop where
  probe : Probe z t1
  or : Ahead z t1 l ∨ live z l ≤ t1.length

section
variable {z : Option Token} {t1 l r : List Token}

theorem Probe.length (hz : Probe z t1) (h : live z l = t1.length) : l.length = t1.length := by
  cases z with
  | none => exact h
  | some k =>
    obtain ⟨-, rfl⟩ := hz k rfl
    simp only [live] at h
    split at h
    · exact h
    · simp at h

theorem Probe.lt (hz : Probe z t1) (hp : Part r l) (hlt : r.length < l.length) (h : live z l ≤ t1.length) :
    live z r < t1.length := by
  cases z with
  | none => simp at *; omega
  | some k =>
    obtain ⟨-, rfl⟩ := hz k rfl
    have := hp.2 k
    simp only [live] at *
    split at h
    · have : r = [] := by cases r <;> simp at h hlt ⊢; omega
      subst this; simp
    · rw [if_neg (by tauto)]; simp

theorem Strict.weak (h : Strict z t1 l) : Weak z t1 l := ⟨h.1, h.2.imp id Nat.le_of_lt⟩

theorem Ahead.suffix {v : List Token} (h : Ahead z t1 (v ++ r)) (hr : t1.length < r.length) : Ahead z t1 r := by
  obtain ⟨r', h1, h2⟩ := Ends.suffix h hr
  rwa [List.append_cancel_left h1] at *

theorem Ahead.not_last {v : List Token} {t : Token} (h : Ahead z t1 (v ++ t :: r)) (ht : t ≠ .Newline) :
    r.length ≠ t1.length := by
  intro e
  obtain ⟨x, hx, h1, -⟩ := h
  have h2 : v ++ [t] ++ r = x ++ [.Newline] ++ t1 := by simpa using h1
  have := (List.append_inj' h2 e).1
  have := List.append_inj' this rfl
  simp at this
  exact ht this.2

theorem Ahead.not_escaped {v : List Token} (h : Ahead z t1 (v ++ .Backslash :: .Newline :: r)) :
    r.length ≠ t1.length := by
  intro e
  obtain ⟨x, hx, h1, -⟩ := h
  have h2 : v ++ [.Backslash] ++ [.Newline] ++ r = x ++ [.Newline] ++ t1 := by simpa using h1
  have := (List.append_inj' h2 e).1
  have := (List.append_inj' this rfl).1
  subst this
  exact hx.last (by simp)

theorem Weak.suffix {v : List Token} (h : Weak z t1 (v ++ r)) : Weak z t1 r := by
  refine ⟨h.1, ?_⟩
  have h1 : live z r ≤ live z (v ++ r) := live_append
  have h2 : live z r ≤ r.length := live_le
  rcases h.2 with h | h
  · by_cases h2 : t1.length < r.length
    · exact .inl (h.suffix h2)
    · exact .inr (by omega)
  · exact .inr (by omega)

theorem Weak.strict (h : Weak z t1 r) (hn : r.length ≠ t1.length) : Strict z t1 r := by
  refine ⟨h.1, h.2.imp id fun h1 => ?_⟩
  have := mt h.1.length hn
  omega

theorem Strict.of_weak {v : List Token} {t : Token} (h : Weak z t1 (v ++ t :: r)) (ht : t ≠ .Newline) :
    Strict z t1 r := by
  rcases h.2 with h1 | h1
  · exact Weak.strict (Weak.suffix (v := v ++ [t]) (by simpa using h)) (h1.not_last ht)
  · refine ⟨h.1, .inr (h.1.lt (l := v ++ t :: r) ?_ (by simp; omega) h1)⟩
    exact .trans .cons .append

theorem Strict.cons {t : Token} (h : Weak z t1 (t :: r)) (ht : t ≠ .Newline) : Strict z t1 r :=
  .of_weak (v := []) h ht

theorem Strict.escaped (h : Weak z t1 (.Backslash :: .Newline :: r)) : Strict z t1 r := by
  have hw : Weak z t1 r := Weak.suffix (v := [.Backslash, .Newline]) h
  rcases h.2 with h1 | h1
  · exact hw.strict (Ahead.not_escaped (v := []) h1)
  · exact ⟨h.1, .inr (h.1.lt (l := .Backslash :: .Newline :: r) (.trans .cons .cons) (by simp; omega) h1)⟩

theorem Strict.skip (h : Strict z t1 l) (hs : Skip l r) : Strict z t1 r := by
  obtain ⟨bs, rfl, hb, -⟩ := hs
  induction hb with
  | nil => exact h
  | ws _ ih => exact ih (.cons h.weak (by simp))
  | escaped _ ih => exact ih (.escaped h.weak)

theorem Weak.skip (h : Weak z t1 l) (hs : Skip l r) : Weak z t1 r := by
  obtain ⟨bs, rfl, hb, -⟩ := hs
  exact h.suffix

theorem Strict.skip_cons {t : Token} (h : Weak z t1 l) (hs : Skip l (t :: r)) (ht : t ≠ .Newline) : Strict z t1 r :=
  .cons (h.skip hs) ht

theorem Strict.keyword {w : Str} (h : Weak z t1 l) (hk : Keyword w l r) : Strict z t1 r := by
  rcases hk.1 with rfl | rfl <;> exact .cons h (by simp)

theorem Strict.kw {w : Str} (h : Weak z t1 l) (hk : Kw w l r) : Strict z t1 r := by
  obtain ⟨l', h1, h2⟩ := hk; exact .keyword (h.skip h1) h2

theorem Weak.line {n : Nl} (h : Weak z t1 l) (hl : Line l n r) : Weak z t1 r := by
  cases hl with
  | @newline bs _ hb => exact Weak.suffix (v := bs ++ [.Newline]) (by simpa using h)
  | @comment bs cs _ hb hc => exact Weak.suffix (v := bs ++ .Pound :: cs ++ [.Newline]) (by simpa using h)
  | lastComment => exact ⟨h.1, .inr (by simp)⟩

theorem Weak.optLine {n : Option Nl} (h : Weak z t1 l) (hl : OptLine l n r) : Weak z t1 r := by
  cases hl with
  | some hl => exact h.line hl
  | none hs _ => exact h.skip hs

theorem Weak.lines {n : List Nl} (h : Weak z t1 l) (hl : Lines l n r) : Weak z t1 r := by
  induction hl with
  | nil hs _ => exact h.skip hs
  | cons h1 _ ih => exact ih (h.line h1)

theorem Strict.parens (h : Weak z t1 l) (hp : Parens l r) : Strict z t1 r := by
  obtain ⟨l1, rfl, hs⟩ := hp
  exact .skip_cons (Strict.cons h (by simp)).weak hs (by simp)

theorem Weak.reads {B : Builder} {n : NT} {b : B.State} {a : n.Res B} {b'} (h : Weak z t1 l)
    (hr : Reads n b l a r b') (hn : n.Proper) : Weak z t1 r := by
  refine ⟨h.1, ?_⟩
  rcases h.2 with h1 | h1
  · by_cases h2 : t1.length < live z r
    · obtain ⟨r', h3, -⟩ := hr.ends h.1 hn _ h1 h2
      obtain ⟨x, hx, hx2, -⟩ := h3
      exact .inl ⟨x, hx, hx2, hx2⟩
    · exact .inr (by omega)
  · have := hr.part.live (z := z); exact .inr (by omega)

theorem Strict.of_lt (h : Weak z t1 l) (ih : Strict z t1 l → Strict z t1 r) (hp : Part r l) (hlt : r.length < l.length) :
    Strict z t1 r := by
  rcases h.2 with h1 | h1
  · exact ih ⟨h.1, .inl h1⟩
  · exact ⟨h.1, .inr (h.1.lt hp hlt h1)⟩

theorem Strict.here {t : Token} {s : Bool} {d : Str} {l1 l2 l3 u saved body : List Token} (h : Strict z t1 (t :: l))
    (h0 : t = .DLess ∨ t = .DLessDash) (h1 : Skip l l1) (h2 : DelimToks l1 u l2) (h3 : RestOfLine l2 saved l3)
    (h4 : HereLines s d l3 body r) : Strict z t1 (saved ++ r) := by
  refine ⟨h.1, ?_⟩
  have hp := (here_part (t := t) h1 h2 h3 h4).live (z := z)
  rcases h.2 with h5 | h5
  · cases z with
    | none => exact absurd h0 (Ends.here h5)
    | some k =>
      obtain ⟨⟨w, rfl⟩, rfl⟩ := h.1 k rfl
      rcases here_ends h5 (by rcases h0 with rfl | rfl <;> simp) (by rcases h0 with rfl | rfl <;> simp) h1 h2 h3 h4 with
        h6 | ⟨_, _, _, _, _, _, _, _, _, _, x, hx, h6, _⟩
      · exact .inr (by simp [h6])
      · exact .inl ⟨x, hx, h6, h6⟩
  · exact .inr (by omega)

/-- Non-terminals that do not end with a newline. -/
def NT.Solid : NT → Prop
  | .group _ | .complete _ | .top | .forWords _ | .arms => False
  | .interpParts d | .interp d => d = some .DoubleQuote
  | _ => True

theorem Reads.strict {B : Builder} {n : NT} {b : B.State} {l} {a : n.Res B} {r b'}
    (h : Reads n b l a r b') : n.Solid → Strict z t1 l → Strict z t1 r := by
  induction h with
  | literal h1 => intro _ h; exact .cons h.weak (by rintro rfl; simp [literalTokens] at h1)
  | name => intro _ h; exact .cons h.weak (by simp)
  | text => intro _ h; exact .cons h.weak (by simp)
  | special h1 => intro _ h; exact .cons h.weak (by rintro rfl; simp [specialTokens] at h1)
  | escaped h1 => intro _ h; exact .cons (Strict.cons h.weak (by simp)).weak h1
  | @singleQuoted b u r h1 => intro _ h; exact .of_weak (v := .SingleQuote :: u) h.weak (by simp)
  | doubleQuoted h1 ih => intro _ h; exact ih rfl (.cons h.weak (by simp))
  | pieceBacktick h1 ih => exact ih
  | pieceParam h1 ih => exact ih
  | endWord h1 => exact fun _ h => h
  | endCurly => exact fun _ h => h
  | endEscaped h1 => exact fun _ h => .escaped h.weak
  | endBackslash => exact fun _ h => .cons h.weak (by simp)
  | consPiece h1 h2 h3 ih1 ih2 => exact fun _ h => ih2 trivial (ih1 trivial h)
  | noWord h1 => exact fun _ h => h.skip h1
  | someWord h1 h2 h3 ih => exact fun _ h => ih trivial (h.skip h1)
  | wordPSome h1 h2 ih => exact ih
  | wordPNone h1 ih => exact ih
  | word h1 h2 ih => exact fun _ h => (ih trivial h).skip h2
  | wordsNil h1 ih => exact ih
  | wordsCons h1 h2 ih1 ih2 => exact fun _ h => ih2 trivial (ih1 trivial h)
  | interpEnd => exact fun hd h => .cons h.weak (by rintro rfl; simp [NT.Solid] at hd)
  | interpEof => exact fun hd => by simp [NT.Solid] at hd
  | interpParam h1 h2 h3 ih1 ih2 => exact fun hd h => ih2 hd (ih1 trivial h)
  | interpBacktick h1 h2 h3 ih1 ih2 => exact fun hd h => ih2 hd (ih1 trivial h)
  | interpEscaped h1 h2 h3 ih =>
    intro hd h
    refine .of_lt (Weak.suffix (v := [_, _]) h.weak) (ih hd) h3.part (h3.len.2 ?_)
    rw [show _ = _ from hd]; simp
  | interpBackslash h1 h2 h3 h4 ih => exact fun hd h => ih hd (.cons h.weak (by simp))
  | interpText h1 h2 h3 h4 ih =>
    intro hd h
    refine .of_lt (Weak.suffix (v := [_]) h.weak) (ih hd) h4.part (h4.len.2 ?_)
    rw [show _ = _ from hd]; simp
  | interp h1 ih => exact ih
  | positional => intro _ h; exact .cons h.weak (by simp)
  | parameter h1 =>
    intro _ h
    refine .cons (Strict.cons h.weak (by simp)).weak ?_
    rintro rfl
    cases h1 with
    | special h => simp [specialParams] at h
  | loneDollar h1 => intro _ h; exact .cons h.weak (by simp)
  | @arithmetic b l l' u l1 l2 a r h1 h2 h3 h4 h5 h6 =>
    intro _ h
    subst h3
    have h := Weak.skip (Weak.suffix (v := [_, _, _]) h.weak) h1
    exact .skip_cons (Strict.skip_cons h.suffix h5 (by simp)).weak h6 (by simp)
  | noArithmetic h1 h2 =>
    intro _ h
    have h := Weak.suffix (v := [_, _, _]) h.weak
    exact .skip_cons (Strict.skip_cons h h1 (by simp)).weak h2 (by simp)
  | commandSubst h1 h2 ih => exact fun _ h => ih trivial (.cons h.weak (by simp))
  | braced h1 h2 ih =>
    intro _ h
    refine .of_lt (Weak.suffix (v := [_, _, _]) h.weak) (ih trivial) h2.part (h2.len.2 trivial)
  | curlyEnd => intro _ h; exact .cons h.weak (by simp)
  | curlyColonEnd => intro _ h; exact .of_weak (v := [_]) h.weak (by simp)
  | curlyLen h1 h2 => intro _ h; exact .of_weak (v := [_]) h.weak (by simp)
  | curlyLenSpecial h1 => intro _ h; exact .of_weak (v := [_]) h.weak (by simp)
  | curlyOp h1 h2 h3 ih =>
    exact fun _ h => .of_lt (Weak.suffix (v := [_]) h.weak) (ih trivial) h2.part (h2.len.2 trivial)
  | curlyColonOp h1 h2 ih =>
    exact fun _ h => .of_lt (Weak.suffix (v := [_, _]) h.weak) (ih trivial) h2.part (h2.len.2 trivial)
  | curlyPercent h1 h2 ih => exact fun _ h => ih trivial (.cons h.weak (by simp))
  | curlyPercent2 h1 ih => exact fun _ h => ih trivial (.of_weak (v := [_]) h.weak (by simp))
  | curlyPound h1 h2 h3 ih => exact fun _ h => ih trivial (.cons h.weak (by simp))
  | curlyPound2 h1 ih => exact fun _ h => ih trivial (.of_weak (v := [_]) h.weak (by simp))
  | substEnd => intro _ h; exact .cons h.weak (by simp)
  | substDelim h1 h2 ih =>
    exact fun _ h => .of_lt (Weak.suffix (v := [_]) h.weak) (ih trivial) h2.part (h2.len.2 trivial)
  | substPound h1 ih => exact fun _ h => ih trivial (.cons h.weak (by simp))
  | substEscaped h1 ih => exact fun _ h => ih trivial (.escaped h.weak)
  | substDropped h1 ih => exact fun _ h => ih trivial (.escaped h.weak)
  | substPiece h1 h2 h3 h4 ih1 ih2 => exact fun _ h => ih2 trivial (ih1 trivial h)
  | substWord h1 ih => exact ih
  | @backtick b u r g b' h1 h2 _ => intro _ h; exact .of_weak (v := .Backtick :: u) h.weak (by simp)
  | subshell h1 h2 ih =>
    exact fun _ h => .cons ((Strict.cons h.weak (by simp)).weak.reads h1 proper_paren) (by simp)
  | groupEnd h1 h2 => exact fun h => h.elim
  | groupCons => exact fun h => h.elim
  | brace h1 h2 h3 h4 h5 h6 ih =>
    exact fun _ h => .skip_cons ((Strict.skip_cons h.weak h1 (by simp)).weak.reads h3 proper_brace) h5 (by simp)
  | doGroup h1 h2 h3 h4 ih =>
    exact fun _ h => .kw ((Strict.kw h.weak h1).weak.reads h2 (proper_word _)) h4
  | redirPath h1 h2 h3 h4 h5 ih =>
    exact fun _ h => ih trivial (.skip (.cons h.weak (by rintro rfl; simp [pathOps] at h1)) h2)
  | redirDupDash h1 h2 h3 h4 h5 =>
    exact fun _ h => .skip_cons (Weak.suffix (v := [_]) h.weak) h2 (by simp)
  | redirDup h1 h2 h3 h4 h5 h6 h7 ih =>
    exact fun _ h => ih trivial (.skip (.cons h.weak (by rintro rfl; simp [dupOps] at h1)) h2)
  | redirHeredoc h1 ih => exact ih
  | heredocQuoted h0 h1 h2 h3 h4 h5 h6 h7 h8 => exact fun _ h => h.here h0 h1 h2 h5 h6
  | heredoc h0 h1 h2 h3 h4 h5 h6 h7 h8 h9 => exact fun _ h => h.here h0 h1 h2 h5 h6
  | redirect h1 h2 h3 ih1 ih2 => exact fun _ h => ih2 trivial (ih1 trivial h)
  | redirectFd h1 h2 h3 h4 ih1 ih2 => exact fun _ h => ih2 trivial (ih1 trivial h)
  | redirectWord h1 h2 h3 ih => exact ih
  | noRedirect h1 h2 ih => exact ih
  | redirectsNil h1 h2 ih => exact fun _ h => ih trivial (h.skip h1)
  | redirectsCons h1 h2 h3 ih1 ih2 => exact fun _ h => ih2 trivial (ih1 trivial (h.skip h1))
  | assignEmpty h1 h2 ih =>
    exact fun _ h => ih trivial (.of_weak (v := [_]) (h.skip h1).weak (by simp))
  | assign h1 h2 h3 h4 ih1 ih2 =>
    exact fun _ h => ih2 trivial (ih1 trivial (.of_weak (v := [_]) (h.skip h1).weak (by simp)))
  | assignsRedirect h1 h2 h3 h4 ih1 ih2 => exact fun _ h => ih2 trivial (ih1 trivial (h.skip h1))
  | assignsWord h1 h2 h3 ih => exact fun _ h => ih trivial (h.skip h1)
  | assignsEnd h1 h2 h3 ih => exact fun _ h => ih trivial (h.skip h1)
  | argsRedirect h1 h2 ih1 ih2 => exact fun _ h => ih2 trivial (ih1 trivial h)
  | argsWord h1 h2 ih1 ih2 => exact fun _ h => ih2 trivial (ih1 trivial h)
  | argsEnd h1 ih => exact ih
  | simple h1 h2 h3 h4 ih1 ih2 => exact fun _ h => ih2 trivial (ih1 trivial h)
  | ifElif h1 h2 h3 h4 h5 h6 h7 ih1 ih2 ih3 =>
    intro _ h
    exact ih3 trivial (.kw ((Strict.kw (h.weak.reads h1 (proper_word _)) h3).weak.reads h4 (proper_word _)) h6)
  | ifElse h1 h2 h3 h4 h5 h6 h7 h8 h9 ih1 ih2 ih3 =>
    intro _ h
    have := Strict.kw ((Strict.kw (h.weak.reads h1 (proper_word _)) h3).weak.reads h4 (proper_word _)) h6
    exact .kw (this.weak.reads h7 (proper_word _)) h9
  | ifFi h1 h2 h3 h4 h5 h6 ih1 ih2 =>
    intro _ h
    exact Strict.kw ((Strict.kw (h.weak.reads h1 (proper_word _)) h3).weak.reads h4 (proper_word _)) h6
  | ifCommand h1 h2 ih => exact fun _ h => ih trivial (.kw h.weak h1)
  | loopCommand h1 h2 h3 h4 ih1 ih2 =>
    exact fun _ h => .of_lt ((Strict.kw h.weak h1).weak.reads h2 (proper_word _)) (ih2 trivial) h4.part (h4.len.2 trivial)
  | forIn => exact fun h => h.elim
  | forSemi => exact fun h => h.elim
  | forDo => exact fun h => h.elim
  | forCommand h1 h2 h3 h4 h5 h6 ih1 ih2 =>
    intro _ h
    have h := (((Strict.skip_cons (Strict.kw h.weak h1).weak h2 (by simp)).weak.optLine h3).lines h4).reads h5 trivial
    exact .of_lt h (ih2 trivial) h6.part (h6.len.2 trivial)
  | patternLast h1 ih => exact fun _ h => .cons (ih trivial h).weak (by simp)
  | patternCons h1 h2 ih1 ih2 => exact fun _ h => ih2 trivial (.cons (ih1 trivial h).weak (by simp))
  | armsEnd => exact fun h => h.elim
  | armsCons => exact fun h => h.elim
  | armsLast => exact fun h => h.elim
  | caseCommand h1 h2 h3 h4 h5 h6 h7 h8 ih1 ih2 =>
    intro _ h
    have h := (ih1 trivial (.kw h.weak h1)).weak.lines h3
    have h := ((Strict.kw h h4).weak.optLine h5).reads h6 trivial
    exact .kw (h.lines h7) h8
  | compoundIf h1 h2 h3 ih1 ih2 => exact fun _ h => ih2 trivial (ih1 trivial h)
  | compoundLoop h0 h1 h2 h3 ih1 ih2 => exact fun _ h => ih2 trivial (ih1 trivial h)
  | compoundFor h1 h2 h3 ih1 ih2 => exact fun _ h => ih2 trivial (ih1 trivial h)
  | compoundCase h1 h2 h3 ih1 ih2 => exact fun _ h => ih2 trivial (ih1 trivial h)
  | compoundBrace h1 h2 h3 ih1 ih2 => exact fun _ h => ih2 trivial (ih1 trivial h)
  | compoundSubshell h1 h2 h3 ih1 ih2 => exact fun _ h => ih2 trivial (ih1 trivial h)
  | fnParens h1 => exact fun _ h => .parens h.weak h1
  | fnNewline => exact fun _ h => h
  | fnWsParens h1 h2 => exact fun _ h => .parens ((Strict.cons h.weak (by simp)).skip h1).weak h2
  | fnWs h1 h2 => exact fun _ h => (Strict.cons h.weak (by simp)).skip h1
  | fnEmpty h1 h2 ih => exact fun _ h => ih trivial ((Strict.cons h.weak (by simp)).skip h1)
  | fnSubshell h1 h2 h3 h4 ih => exact fun _ h => ih trivial ((Strict.cons h.weak (by simp)).skip h1)
  | function h1 h2 h3 h4 h5 h6 h7 ih1 ih2 =>
    intro _ h
    refine .of_lt ((ih1 trivial (.skip_cons ?_ h2 (by simp))).weak.lines h4) (ih2 trivial) h6.part (h6.len.2 trivial)
    rcases h1 with ⟨rfl, h1⟩ | ⟨rfl, rfl, h1⟩
    · exact (Strict.kw h.weak h1).weak
    · exact h.weak
  | functionSubshell h1 h2 h3 h4 ih =>
    exact fun _ h => ih trivial (.skip_cons (Strict.kw h.weak h1).weak h2 (by simp))
  | commandCompound h1 h2 h3 h4 ih => exact fun _ h => ih trivial (h.skip h1)
  | commandFunction h1 h2 h3 h4 ih => exact fun _ h => ih trivial (h.skip h1)
  | commandSimple h1 h2 h3 h4 ih => exact fun _ h => ih trivial (h.skip h1)
  | pipeLast h1 h2 h3 ih => exact ih
  | pipeCons h1 h2 h3 h4 ih1 ih2 =>
    exact fun _ h => .of_lt ((Strict.cons (ih1 trivial h).weak (by simp)).weak.lines h3) (ih2 trivial) h4.part (h4.len.2 trivial)
  | pipeline h1 h2 h3 h4 ih =>
    intro _ h
    have h := h.skip h1
    rcases h2 with ⟨rfl, rfl⟩ | ⟨rfl, rfl, h2⟩
    · exact ih trivial (.cons h.weak (by simp))
    · exact ih trivial h
  | andOrEnd h1 h2 => exact fun _ h => h.skip h1
  | andOrAnd h1 h2 h3 h4 ih1 ih2 =>
    exact fun _ h => ih2 trivial (.of_lt ((Strict.skip_cons h.weak h1 (by simp)).weak.lines h2) (ih1 trivial) h3.part (h3.len.2 trivial))
  | andOrOr h1 h2 h3 h4 ih1 ih2 =>
    exact fun _ h => ih2 trivial (.of_lt ((Strict.skip_cons h.weak h1 (by simp)).weak.lines h2) (ih1 trivial) h3.part (h3.len.2 trivial))
  | andOr h1 h2 h3 ih1 ih2 => exact fun _ h => ih2 trivial (ih1 trivial h)
  | complete => exact fun h => h.elim
  | topCommand => exact fun h => h.elim
  | topNone => exact fun h => h.elim
  | topComments => exact fun h => h.elim

end

/-! ## The separator at the newline -/

section
variable {z : Option Token} {t1 t2 l l' r : List Token}

theorem Ends.line_end {n : Nl} (h : Ends z t1 t2 l l') (hl : Line l n r) (hr : r.length = t1.length) :
    Line l' n t2 := by
  obtain ⟨x, hx, hx1, rfl⟩ := h
  cases hl with
  | @newline bs _ hb =>
    obtain ⟨rfl, h2⟩ := List.append_inj' hx1 (by simp [hr])
    exact .newline hb
  | @comment bs cs _ hb hc =>
    obtain ⟨rfl, h2⟩ := List.append_inj' hx1 (by simp [hr])
    exact .comment hb hc
  | @lastComment bs cs hb hc =>
    cases t1 with
    | cons => simp at hr
    | nil =>
      rcases List.eq_nil_or_concat cs with rfl | ⟨cs, c, rfl⟩
      · have := (List.append_inj' hx1 rfl).2
        simp at this
      · have h2 : bs ++ .Pound :: cs ++ [c] = x ++ [.Newline] := by simpa using hx1
        have := (List.append_inj' h2 rfl).2
        simp at this
        exact absurd this (hc c (by simp))

theorem Ends.ahead (h : Ends z t1 t2 l l') : Ahead z t1 l := by
  obtain ⟨x, hx, hx1, -⟩ := h; exact ⟨x, hx, hx1, hx1⟩

theorem Ends.not_skip (h : Ends z t1 t2 l l') (hs : Skip l r) : r.length ≠ t1.length := by
  obtain ⟨x, hx, rfl, -⟩ := h
  obtain ⟨bs, y2, -, rfl, -⟩ := skip_probe hs hx.last
  simp; omega

theorem Ends.optLine_end {n : Option Nl} (h : Ends z t1 t2 l l') (hl : OptLine l n r)
    (hr : r.length = t1.length) : OptLine l' n t2 := by
  cases hl with
  | some hl => exact .some (h.line_end hl hr)
  | none hs _ => exact absurd hr (h.not_skip hs)

theorem Ends.sepAfter_end {k : SeparatorKind} {c : Option Nl} (h : Ends z t1 t2 l l') (hp : SepAfter l k c r)
    (hr : r.length = t1.length) : SepAfter l' k c t2 := by
  cases hp with
  | semi h1 => obtain ⟨l1, rfl, h2⟩ := h.cons_ne (by simp); exact .semi (h2.optLine_end h1 hr)
  | amp h1 => obtain ⟨l1, rfl, h2⟩ := h.cons_ne (by simp); exact .amp (h2.optLine_end h1 hr)
  | newline h1 h2 =>
    exact .newline (h.line_end h1 hr) fun r => ⟨h.ne (fun r => (h2 r).1) r, h.ne (fun r => (h2 r).2) r⟩
  | other h1 h2 h3 => exact absurd hr (h.not_skip h1)

variable {B : Builder} {b b' : B.State}

theorem Ahead.live (hz : Probe z t1) (h : Ahead z t1 l) : t1.length < Gram.live z l := by
  cases z with
  | none => exact Ends.len h
  | some k =>
    have := Ends.len h
    obtain ⟨-, rfl⟩ := hz k rfl
    obtain ⟨x, -, rfl, -⟩ := h
    simpa [Gram.live] using this

theorem Ends.complete_end {pre : List Nl} {a : B.Command} (hz : Probe z t1) (h : Ends z t1 t2 l l')
    (hp : Reads (.complete pre) b l a r b') (hr : live z r = t1.length) :
    Reads (.complete pre) b l' a t2 b' := by
  cases hp with
  | complete h1 h2 h3 =>
    have hle := h2.part.live (z := z)
    rcases (h1.strict trivial ⟨hz, .inl h.ahead⟩).or with h4 | h4
    · obtain ⟨l1, e1, g1⟩ := h1.ends hz trivial _ h (h4.live hz)
      exact .complete g1 (e1.sepAfter_end h2 (hz.length hr)) h3
    · omega

theorem Ends.top_end {a : B.Command} (hz : Probe z t1) (h : Ends z t1 t2 l l')
    (hp : Reads .top b l (some a) r b') (hr : live z r = t1.length) :
    Reads .top b l' (some a) t2 b' := by
  cases hp with
  | topCommand h1 h2 h3 =>
    have := h3.len.2 trivial
    have := hz.length hr
    obtain ⟨l1, e1, g1⟩ := h.lines h1 (by omega)
    exact .topCommand g1 e1.nonempty' (e1.complete_end hz h3 hr)

end

end Conch.Gram
