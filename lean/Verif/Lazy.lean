import Verif.PropsLocal
/-!
# How far the parser looks ahead: the calculus

A `TokenIter` pulls tokens from the iterator it wraps and buffers those it has only shown. Here we
follow what is buffered. `Strict`: a newline is at most the last of the buffered tokens, so nothing
after it was pulled. `Weak`: also one token after a newline that comes next may have been pulled.
-/
namespace Conch
open Spec

/-- The tokens that were pulled from the wrapped iterator and not consumed. -/
def TokenIter.buffered (it : TokenIter) : List Token := Multipeek.bufToks it.prev

namespace Lazy

/-- A newline is at most the last of these tokens. -/
def Strict (x : List Token) : Prop := .Newline ∉ x.dropLast

/-- A newline is at most the last of these tokens, or the first of two. -/
def Weak (x : List Token) : Prop := Strict x ∨ ∃ t, x = [.Newline, t]

theorem strict_nil : Strict [] := by simp [Strict]
theorem strict_one (t : Token) : Strict [t] := by simp [Strict]

theorem Strict.weak {x : List Token} (h : Strict x) : Weak x := .inl h

theorem Strict.tail {x : List Token} (h : Strict x) : Strict x.tail := by
  match x with
  | [] => exact h
  | [t] => exact strict_nil
  | t :: u :: x =>
    unfold Strict at h ⊢
    simp only [List.tail_cons, List.dropLast_cons_cons, List.mem_cons, not_or] at h ⊢
    exact h.2

theorem Weak.tail {x : List Token} (h : Weak x) : Strict x.tail := by
  rcases h with h | ⟨t, rfl⟩
  · exact h.tail
  · exact strict_one t

theorem Weak.strict {x : List Token} {t : Token} (h : Weak (t :: x)) (ht : t ≠ .Newline) : Strict (t :: x) := by
  rcases h with h | ⟨u, h⟩
  · exact h
  · cases h; exact absurd rfl ht

/-! ## The operations of the stream -/

theorem buffered_pop (it : TokenIter) : it.updatedBufferedPos.buffered = it.buffered ∧
    it.updatedBufferedPos.iter = it.iter := by
  refine ⟨?_, rfl⟩
  obtain ⟨i, prev, pos⟩ := it
  unfold TokenIter.updatedBufferedPos TokenIter.buffered
  simp only
  induction prev generalizing pos with
  | nil => rfl
  | cons x l ih =>
    cases x with
    | Tok t => rfl
    | Pos p => exact ih p

theorem toks_buffered (it : CIter) : it.1.abs.toks = it.1.buffered ++ it.1.iter := (Multipeek.toks_eq _).symm

theorem next_buffered (it : CIter) :
    (TokStream.next it).2.1.buffered = it.1.buffered.tail ∧
    ((TokStream.next it).2.1.iter = if it.1.buffered = [] then it.1.iter.tail else it.1.iter) := by
  obtain ⟨⟨iter, prev, pos⟩, hok⟩ := it
  show (CIter.next _).2.1.buffered = _ ∧ (CIter.next _).2.1.iter = _
  unfold CIter.next
  split
  · rename_i r it' h
    simp only
    match prev with
    | [] =>
      match iter with
      | [] =>
        simp only [TokenIter.next, TokenIter.nextTokenOrPos] at h
        cases h
        exact ⟨rfl, rfl⟩
      | t :: ts =>
        simp only [TokenIter.next, TokenIter.nextTokenOrPos] at h
        cases h
        exact ⟨rfl, rfl⟩
    | .Pos p :: prev => exact absurd rfl (hok p prev)
    | .Tok t :: prev =>
      simp only [TokenIter.next, TokenIter.nextTokenOrPos] at h
      cases h
      rw [(buffered_pop _).1, (buffered_pop _).2]
      exact ⟨rfl, by simp [TokenIter.buffered, Multipeek.bufToks]⟩
  · rename_i h
    exact absurd (TokenIter.next_isSome hok) (by simp [h])

/-- What a look-ahead has shown, and what is buffered after that. -/
def shown (m : Multipeek) : List Token := Multipeek.bufToks m.buf
def behind (m : Multipeek) : List Token := m.iter.buffered

theorem bufToks_append (a b : List TokenOrPos) :
    Multipeek.bufToks (a ++ b) = Multipeek.bufToks a ++ Multipeek.bufToks b := by
  induction a with
  | nil => rfl
  | cons x a ih => cases x <;> simp [Multipeek.bufToks, ih]

theorem pull_buffered (it : List Token) (prev buf : List TokenOrPos) :
    match Multipeek.pull it prev buf with
    | (t, it', prev', buf') =>
      (∃ u, t = some u ∧ Multipeek.bufToks buf' = Multipeek.bufToks buf ++ [u] ∧
        (Multipeek.bufToks prev = u :: Multipeek.bufToks prev' ∧ it' = it ∨
          Multipeek.bufToks prev = [] ∧ Multipeek.bufToks prev' = [] ∧ it = u :: it')) ∨
      (t = none ∧ Multipeek.bufToks buf' = Multipeek.bufToks buf ∧ Multipeek.bufToks prev = [] ∧
        Multipeek.bufToks prev' = [] ∧ it = [] ∧ it' = []) := by
  induction prev generalizing buf with
  | nil =>
    cases it with
    | nil => exact .inr ⟨rfl, rfl, rfl, rfl, rfl, rfl⟩
    | cons u it => exact .inl ⟨u, rfl, by rw [bufToks_append]; rfl, .inr ⟨rfl, rfl, rfl⟩⟩
  | cons x prev ih =>
    cases x with
    | Tok u => exact .inl ⟨u, rfl, by rw [bufToks_append]; rfl, .inl ⟨rfl, rfl⟩⟩
    | Pos p =>
      have := ih (buf ++ [.Pos p])
      unfold Multipeek.pull
      rw [bufToks_append] at this
      simpa [Multipeek.bufToks] using this

theorem drop_buffered (m : Multipeek) : m.drop.buffered = shown m ++ behind m ∧ m.drop.iter = m.iter.iter := by
  unfold Multipeek.drop TokenIter.bufferTokensAndPositions
  refine ⟨?_, rfl⟩
  rw [(buffered_pop _).1]
  exact bufToks_append _ _

/-- One step of a look-ahead. -/
theorem peekNext_cases (m : Multipeek) :
    (∃ u, m.peekNext.1 = some u ∧ shown m.peekNext.2 = shown m ++ [u] ∧
      (behind m = u :: behind m.peekNext.2 ∨ behind m = [] ∧ behind m.peekNext.2 = [])) ∨
    (m.peekNext.1 = none ∧ shown m.peekNext.2 = shown m ∧ behind m = [] ∧ behind m.peekNext.2 = []) := by
  have := pull_buffered m.iter.iter m.iter.prev m.buf
  unfold Multipeek.peekNext shown behind TokenIter.buffered
  generalize Multipeek.pull m.iter.iter m.iter.prev m.buf = z at this
  obtain ⟨t, it', prev', buf'⟩ := z
  simp only at this ⊢
  rcases this with ⟨u, h1, h2, h3⟩ | ⟨h1, h2, h3, h4, -⟩
  · exact .inl ⟨u, h1, h2, by rcases h3 with h3 | h3; exacts [.inl h3.1, .inr ⟨h3.1, h3.2.1⟩]⟩
  · exact .inr ⟨h1, h2, h3, h4⟩

/-- The state of a look-ahead over the stream `a`: the tokens buffered in the end are weak, and
strict if `p`. -/
structure Mp (a : AIter) (p : Prop) (m : Multipeek) : Prop where
  it : m.abs.it = a
  weak : Weak (shown m ++ behind m)
  strict : p → Strict (shown m ++ behind m)

theorem mp_new {it : CIter} {p : Prop} (hw : Weak it.1.buffered) (hs : p → Strict it.1.buffered) :
    Mp it.1.abs p (TokStream.mpNew it) ∧ shown (TokStream.mpNew it) = [] :=
  ⟨⟨by show (Multipeek.abs (Multipeek.new it.1)).it = _; rw [Multipeek.abs_new], hw, hs⟩, rfl⟩

/-- Showing one more token, when no newline was shown. -/
theorem Mp.next {a : AIter} {p : Prop} {m : Multipeek} (h : Mp a p m) (hn : .Newline ∉ shown m) :
    Mp a p m.peekNext.2 ∧ (m.peekNext.1 ≠ some .Newline → .Newline ∉ shown m.peekNext.2) ∧
      (shown m = [] → m.peekNext.1 ≠ some .Newline → Mp a True m.peekNext.2) := by
  have e := (Multipeek.peekNext_abs m).2
  have e : m.peekNext.2.abs.it = a := by rw [e]; exact h.it
  rcases peekNext_cases m with ⟨u, h1, h2, h3 | ⟨h3, h4⟩⟩ | ⟨h1, h2, h3, h4⟩
  · have : shown m.peekNext.2 ++ behind m.peekNext.2 = shown m ++ behind m := by simp [h2, h3]
    refine ⟨⟨e, by rw [this]; exact h.weak, by rw [this]; exact h.strict⟩, ?_, ?_⟩
    · rw [h1, h2]; intro hu; simp [hn, Ne.symm (fun h => hu (congrArg some h) : ¬ u = _)]
    · intro h0 hu
      refine ⟨e, by rw [this]; exact h.weak, fun _ => ?_⟩
      rw [this, h3, h0]
      have hw := h.weak
      rw [h3, h0] at hw
      exact hw.strict fun h => hu (by rw [h1, h])
  · have : Strict (shown m.peekNext.2 ++ behind m.peekNext.2) := by
      unfold Strict
      rw [h2, h4]
      simpa using hn
    refine ⟨⟨e, this.weak, fun _ => this⟩, ?_, fun _ _ => ⟨e, this.weak, fun _ => this⟩⟩
    rw [h1, h2]; intro hu; simp [hn, Ne.symm (fun h => hu (congrArg some h) : ¬ u = _)]
  · have : shown m.peekNext.2 ++ behind m.peekNext.2 = shown m ++ behind m := by simp [h2, h3, h4]
    refine ⟨⟨e, by rw [this]; exact h.weak, by rw [this]; exact h.strict⟩, fun _ => by rw [h2]; exact hn, ?_⟩
    intro h0 _
    refine ⟨e, by rw [this]; exact h.weak, fun _ => ?_⟩
    rw [this, h0, h3]
    exact strict_nil

/-- Showing a second token. -/
theorem Mp.second {a : AIter} {p : Prop} {m : Multipeek} (h : Mp a p m) (hn : (shown m).length ≤ 1) :
    Mp a False m.peekNext.2 := by
  by_cases hc : .Newline ∈ shown m
  · obtain hc : shown m = [.Newline] := by
      match hm : shown m with
      | [] => rw [hm] at hc; cases hc
      | [t] => rw [hm] at hc; simp at hc; rw [hc]
      | t :: u :: l => rw [hm] at hn; simp at hn
    have e := (Multipeek.peekNext_abs m).2
    have e : m.peekNext.2.abs.it = a := by rw [e]; exact h.it
    rcases peekNext_cases m with ⟨u, h1, h2, h3 | ⟨h3, h4⟩⟩ | ⟨h1, h2, h3, h4⟩
    · have : shown m.peekNext.2 ++ behind m.peekNext.2 = shown m ++ behind m := by simp [h2, h3]
      exact ⟨e, by rw [this]; exact h.weak, False.elim⟩
    · refine ⟨e, ?_, False.elim⟩
      rw [h2, h4, hc]
      exact .inr ⟨u, rfl⟩
    · have : shown m.peekNext.2 ++ behind m.peekNext.2 = shown m ++ behind m := by simp [h2, h3, h4]
      exact ⟨e, by rw [this]; exact h.weak, False.elim⟩
  · exact ⟨(h.next hc).1.it, (h.next hc).1.weak, False.elim⟩

theorem shown_one {m : Multipeek} (h : shown m = []) : (shown m.peekNext.2).length ≤ 1 := by
  rcases peekNext_cases m with ⟨u, h1, h2, -⟩ | ⟨h1, h2, -⟩ <;> rw [h2, h] <;> simp

theorem peek_buffered (it : CIter) : (TokStream.peek it).2.1.buffered =
    if it.1.buffered = [] then it.1.iter.take 1 else it.1.buffered := by
  have e : (TokStream.peek it).2.1 = (Multipeek.new it.1).peekNext.2.drop := by
    show (CIter.peek it).2.1 = _
    unfold CIter.peek
    split
    · rename_i r it' h
      simp only
      unfold TokenIter.peek at h
      split at h
      · rename_i m hm; cases h; rw [hm]
      · rename_i t m hm
        split at h
        · cases h; rw [hm]
        · cases h
    · rename_i h
      exact absurd (TokenIter.peek_isSome it.2) (by simp [h])
  rw [e, (drop_buffered _).1]
  have := pull_buffered it.1.iter it.1.prev []
  unfold Multipeek.peekNext shown behind TokenIter.buffered Multipeek.new
  simp only
  generalize Multipeek.pull it.1.iter it.1.prev [] = z at this
  obtain ⟨t, it', prev', buf'⟩ := z
  simp only at this ⊢
  rcases this with ⟨u, rfl, h2, ⟨h3, h4⟩ | ⟨h3, h4, h5⟩⟩ | ⟨h1, h2, h3, h4, h5, h6⟩
  · rw [h2, h3]; simp [Multipeek.bufToks]
  · rw [h2, h3, h4, h5]; simp [Multipeek.bufToks]
  · rw [h2, h3, h4, h5]; simp [Multipeek.bufToks]

/-! ## Reaching states by `peek` and `next` -/

/-- The stream after some calls of `peek` and `next`. -/
inductive Steps : CIter → CIter → Prop
  | refl {i} : Steps i i
  | peek {i j} : Steps i j → Steps i (TokStream.peek j).2
  | next {i j} : Steps i j → Steps i (TokStream.next j).2

theorem Steps.trans {i j k : CIter} (h : Steps i j) (h' : Steps j k) : Steps i k := by
  induction h' with
  | refl => exact h
  | peek _ ih => exact ih.peek
  | next _ ih => exact ih.next

/-- The tokens left, by number. -/
def ntoks (it : CIter) : Nat := it.1.abs.toks.length

theorem peek_toks (it : CIter) : (TokStream.peek it).2.1.abs = it.1.abs := (CIter.peek_eq it).2

theorem next_toks (it : CIter) : (TokStream.next it).2.1.abs.toks = it.1.abs.toks.tail := by
  have : (TokStream.next it).2.1.abs = it.1.abs.next.2 := (CIter.next_eq it).2
  rw [this]
  unfold AIter.next AIter.toks
  split <;> simp_all

/-- The tokens before the last `q` contain no operator of a here-document, and the buffer is weak. -/
structure Good (q : List Token) (it : CIter) : Prop where
  plain : ∃ u, it.1.abs.toks = u ++ q ∧ Gram.NoHere u
  weak : Weak it.1.buffered

theorem Good.peek {q : List Token} {it : CIter} (h : Good q it) : Good q (TokStream.peek it).2 ∧
    (Strict it.1.buffered → Strict (TokStream.peek it).2.1.buffered) ∧
    ((TokStream.peek it).1 ≠ some .Newline → Strict (TokStream.peek it).2.1.buffered) := by
  have e := peek_buffered it
  have key : Weak (TokStream.peek it).2.1.buffered ∧ (Strict it.1.buffered → Strict (TokStream.peek it).2.1.buffered) := by
    rw [e]
    split
    · have : Strict (it.1.iter.take 1) := by
        match it.1.iter with
        | [] => exact strict_nil
        | t :: l => exact strict_one t
      exact ⟨this.weak, fun _ => this⟩
    · exact ⟨h.weak, id⟩
  refine ⟨⟨by rw [peek_toks]; exact h.plain, key.1⟩, key.2, fun hp => ?_⟩
  have h1 : (TokStream.peek it).1 = it.1.abs.toks.head? := by
    rw [show (TokStream.peek it).1 = _ from (CIter.peek_eq it).1]
    simp [AIter.peek, AIter.toks]
  rw [h1, toks_buffered] at hp
  rw [e]
  split
  · match it.1.iter with
    | [] => exact strict_nil
    | t :: l => exact strict_one t
  · match hb : it.1.buffered with
    | [] => contradiction
    | t :: l =>
      rw [hb] at hp
      have := h.weak
      rw [hb] at this
      exact this.strict (by simpa using hp)

theorem Good.next {q : List Token} {it : CIter} (h : Good q it) (hq : q.length ≤ ntoks (TokStream.next it).2) :
    Good q (TokStream.next it).2 ∧ Strict (TokStream.next it).2.1.buffered := by
  have hs : Strict (TokStream.next it).2.1.buffered := by
    rw [(next_buffered it).1]
    exact h.weak.tail
  refine ⟨⟨?_, hs.weak⟩, hs⟩
  obtain ⟨u, h1, h2⟩ := h.plain
  unfold ntoks at hq
  rw [next_toks, h1] at hq ⊢
  cases u with
  | nil =>
    cases q with
    | nil => exact ⟨[], rfl, by simp [Gram.NoHere]⟩
    | cons t q => simp at hq; omega
  | cons t u => exact ⟨u, rfl, fun t ht => h2 t (List.mem_cons_of_mem _ ht)⟩

theorem ntoks_peek (it : CIter) : ntoks (TokStream.peek it).2 = ntoks it := by unfold ntoks; rw [peek_toks]
theorem ntoks_next (it : CIter) : ntoks (TokStream.next it).2 ≤ ntoks it := by
  unfold ntoks; rw [next_toks]; simp

theorem Steps.ntoks {i j : CIter} (h : Steps i j) : ntoks j ≤ ntoks i := by
  induction h with
  | refl => exact Nat.le_refl _
  | peek _ ih => rw [ntoks_peek]; exact ih
  | next _ ih => exact Nat.le_trans (ntoks_next _) ih

theorem Steps.good {q : List Token} {i j : CIter} (h : Steps i j) (hg : Good q i) (hq : q.length ≤ Lazy.ntoks j) :
    Good q j ∧ (Strict i.1.buffered → Strict j.1.buffered) := by
  induction h with
  | refl => exact ⟨hg, id⟩
  | peek _ ih =>
    rw [ntoks_peek] at hq
    exact ⟨(ih hq).1.peek.1, fun hs => (ih hq).1.peek.2.1 ((ih hq).2 hs)⟩
  | next _ ih =>
    have h := (ih (Nat.le_trans hq (ntoks_next _))).1.next hq
    exact ⟨h.1, fun _ => h.2⟩

/-! ## The calculus -/

variable {B : Builder} {α β σ : Type}

/-- If `m` returns and the last `q` tokens are left then no more than allowed is buffered; what is
buffered in the end is strict if `Q` holds of the result, given that it was strict before or `p`
does not hold. -/
def Lz (q : List Token) (p : Prop) (m : P CIter B α) (Q : α → Prop) : Prop :=
  ∀ s a s', m s = (.ok a, s') → ntoks s'.it ≤ ntoks s.it ∧
    (q.length ≤ ntoks s'.it → Good q s.it → (p → Strict s.it.1.buffered) →
      Good q s'.it ∧ (Q a → Strict s'.it.1.buffered))

section
variable {q : List Token} {p : Prop} {Q : α → Prop}

theorem lz_pure {a : α} (h : Q a → p) : Lz q p (pure a : P CIter B α) Q := by
  intro s b s' e
  cases e
  exact ⟨Nat.le_refl _, fun _ hg hs => ⟨hg, fun hq => hs (h hq)⟩⟩

theorem lz_bind {m : P CIter B α} {f : α → P CIter B β} {Q1 : α → Prop} {Q : β → Prop}
    (h : Lz q p m Q1) (h' : ∀ a, Lz q (Q1 a) (f a) Q) : Lz q p (m >>= f) Q := by
  intro s b s' e
  change P.bind m f s = _ at e
  unfold P.bind at e
  have h1 := h s
  generalize m s = z at e h1
  obtain ⟨r, s1⟩ := z
  cases r with
  | ok a =>
    obtain ⟨h2, h3⟩ := h1 a s1 rfl
    obtain ⟨h4, h5⟩ := h' a s1 b s' e
    refine ⟨Nat.le_trans h4 h2, fun hq hg hs => ?_⟩
    obtain ⟨g, gs⟩ := h3 (Nat.le_trans hq h4) hg hs
    exact h5 hq g gs
  | err _ => cases e
  | panic _ => cases e
  | fuel => cases e

theorem Lz.mono {m : P CIter B α} {p' : Prop} {Q' : α → Prop} (h : Lz q p m Q) (hp : p → p') (hQ : ∀ a, Q' a → Q a) :
    Lz q p' m Q' := by
  intro s a s' e
  obtain ⟨h1, h2⟩ := h s a s' e
  exact ⟨h1, fun hq hg hs => ⟨(h2 hq hg (fun x => hs (hp x))).1, fun x => (h2 hq hg (fun x => hs (hp x))).2 (hQ a x)⟩⟩

theorem lz_fail {e : ParseError B.Error} : Lz q p (fail e : P CIter B α) Q := by
  intro s a s' h; cases h

theorem lz_panicAt {n : Nat} : Lz q p (panicAt n : P CIter B α) Q := by
  intro s a s' h; cases h

theorem lz_outOfFuel : Lz q p (outOfFuel : P CIter B α) Q := by
  intro s a s' h; cases h

theorem lz_getPos : Lz q p (getPos : P CIter B SourcePos) (fun _ => p) := by
  intro s a s' h; cases h
  exact ⟨Nat.le_refl _, fun _ hg hs => ⟨hg, hs⟩⟩

theorem lz_call (c : Call B.toBTypes) : Lz q p (call c : P CIter B c.Ret) (fun _ => p) := by
  intro s a s' h
  unfold call at h
  split at h <;> cases h
  exact ⟨Nat.le_refl _, fun _ hg hs => ⟨hg, hs⟩⟩

theorem lz_peek : Lz q p (peek : P CIter B _) (fun t => p ∨ t ≠ some .Newline) := by
  intro s a s' h; cases h
  refine ⟨Nat.le_of_eq (ntoks_peek _), fun _ hg hs => ⟨hg.peek.1, ?_⟩⟩
  rintro (h | h)
  · exact hg.peek.2.1 (hs h)
  · exact hg.peek.2.2 h

theorem lz_next : Lz q p (next : P CIter B _) (fun _ => True) := by
  intro s a s' h; cases h
  exact ⟨ntoks_next _, fun hq hg hs => ⟨(hg.next hq).1, fun _ => (hg.next hq).2⟩⟩

/-- What a look-ahead is allowed to show. -/
def MpOk (p : Prop) (f : TokStream.MP CIter → α × TokStream.MP CIter) (Q : α → Prop) : Prop :=
  (∀ m : Multipeek, (f m).2.abs.it = m.abs.it) ∧
    ∀ a (m : Multipeek), Mp a p m → shown m = [] → Mp a (Q (f m).1) (f m).2

theorem lz_lookahead {f : TokStream.MP CIter → α × TokStream.MP CIter} (h : MpOk p f Q) :
    Lz q p (lookahead (I := CIter) f : P CIter B α) Q := by
  intro s a s' e
  cases e
  have e : (TokStream.mpDrop (I := CIter) (f (TokStream.mpNew s.it)).2).1.abs = s.it.1.abs := by
    rw [show (TokStream.mpDrop (I := CIter) (f (TokStream.mpNew s.it)).2).1.abs =
      (f (TokStream.mpNew s.it)).2.abs.it from rfl, h.1]
    show (Multipeek.abs (Multipeek.new s.it.1)).it = _
    rw [Multipeek.abs_new]
  refine ⟨?_, fun hq hg hs => ?_⟩
  · show Lazy.ntoks _ ≤ _
    unfold Lazy.ntoks
    rw [e]
  · have k := h.2 _ _ (mp_new hg.weak hs).1 (mp_new hg.weak hs).2
    have d := (drop_buffered (f (TokStream.mpNew s.it)).2).1
    refine ⟨⟨by rw [e]; exact hg.plain, ?_⟩, fun hQ => ?_⟩
    · show Weak (Multipeek.drop _).buffered
      rw [d]; exact k.weak
    · show Strict (Multipeek.drop _).buffered
      rw [d]; exact k.strict hQ


/-- What holds after a step of a loop with the invariant `J`. -/
def onStep (J : σ → Prop) (Q : α → Prop) : Step σ α → Prop
  | .cont y => J y
  | .done a => Q a

@[simp] theorem onStep_cont {J : σ → Prop} {Q : α → Prop} {y : σ} : onStep J Q (.cont y) = J y := rfl
@[simp] theorem onStep_done {J : σ → Prop} {Q : α → Prop} {a : α} : onStep J Q (.done a) = Q a := rfl

theorem lz_loop (J : σ → Prop) {body : σ → P CIter B (Step σ α)} {x : σ}
    (h : ∀ x, Lz q (J x) (body x) (onStep J Q)) (hx : J x → p) : Lz q p (loop body x) Q := by
  have key : ∀ n x, Lz q (J x) (loopN body n x) Q := by
    intro n
    induction n with
    | zero => intro x; exact lz_outOfFuel
    | succ n ih =>
      intro x
      refine lz_bind (h x) ?_
      rintro (y | a)
      · exact ih y
      · exact lz_pure id
  intro s a s' e
  exact (key _ x).mono hx (fun _ h => h) s a s' e

theorem lz_withIterRestore {i : CIter} {m : P CIter B α} : Lz q p (withIterRestore i m) (fun _ => p) := by
  intro s a s' e
  unfold withIterRestore at e
  generalize m { s with it := i } = z at e
  obtain ⟨r, s1⟩ := z
  cases e
  exact ⟨Nat.le_refl _, fun _ hg hs => ⟨hg, hs⟩⟩

/-- A computation that only calls `peek` and `next` of the stream. -/
theorem lz_steps {m : P CIter B α} (h : ∀ s a s', m s = (.ok a, s') → Steps s.it s'.it) : Lz q p m (fun _ => p) :=
  fun s a s' e => ⟨(h s a s' e).ntoks, fun hq hg hs =>
    ⟨((h s a s' e).good hg hq).1, fun hp => ((h s a s' e).good hg hq).2 (hs hp)⟩⟩

theorem lz_scan {f : CIter → Collected × CIter} (h : ∀ i, Steps i (f i).2) :
    Lz q p (scan f : P CIter B _) (fun _ => p) := by
  refine lz_steps fun s a s' e => ?_
  unfold scan at e
  have h := h s.it
  generalize f s.it = z at e h
  obtain ⟨r, i⟩ := z
  cases r <;> cases e
  exact h

/-- The budget may depend on the length of the stream. -/
theorem lz_len {m : Nat → P CIter B α} {k : Nat} (h : ∀ n, Lz q p (m n) Q) :
    Lz q p (fun s => m (TokStream.len s.it + k) s) Q := fun s a s' e => h _ s a s' e

theorem Lz.weaken {m : P CIter B α} {Q' : α → Prop} (h : Lz q p m Q) (hQ : ∀ a, Q' a → Q a) : Lz q p m Q' :=
  h.mono id hQ

/-- Nothing need be known before. -/
theorem Lz.any {m : P CIter B α} (h : Lz q False m Q) : Lz q p m Q := h.mono False.elim fun _ h => h

theorem lz_unexpected : Lz q p (unexpected : P CIter B α) Q := by
  refine lz_bind lz_getPos fun _ => lz_bind lz_next fun t => ?_
  cases t with
  | none => exact lz_fail
  | some t => exact lz_fail

end

attribute [irreducible] Lz

/-! ## Automation -/

/-- Closes a goal with a known lemma. Extended after every lemma below. -/
syntax "lz_lemma" : tactic

/-- The same, with side conditions. -/
syntax "lz_lemma2" : tactic

/-- Closes a goal about a single operation. -/
macro "lz_atom" : tactic => `(tactic| first
    | with_reducible lz_lemma
    | lz_lemma2
    | with_reducible exact lz_peek
    | with_reducible exact lz_next
    | with_reducible exact lz_getPos
    | with_reducible exact lz_call _)

/-- The side conditions on what is strict. -/
macro "lz_side" : tactic => `(tactic| first
    | (intros; trivial; done)
    | (intros; assumption; done)
    | (intros; simp_all; done)
    | (intros; tauto))

/-- One step. -/
macro "lz_step" : tactic => `(tactic| first
    | with_reducible exact lz_panicAt
    | with_reducible exact lz_outOfFuel
    | with_reducible exact lz_unexpected
    | with_reducible exact lz_fail
    | ((with_reducible refine lz_pure ?_); lz_side)
    | ((with_reducible refine Lz.weaken (Q := ?Q) ?h ?_); (case h => lz_atom); lz_side)
    | (((with_reducible refine lz_bind (Q1 := ?Q) ?h ?_); (case h => lz_atom)); intro _)
    | split)

/-- Runs `lz_step` until it does not apply any more. -/
macro "lz" : tactic => `(tactic| repeat' lz_step)

section
variable {q : List Token} {p : Prop} {Q : α → Prop}

theorem lz_eatMaybe (t : Token) : Lz q p (eatMaybe t : P CIter B _) (fun b => p ∨ b = true) := by
  unfold eatMaybe
  lz
macro_rules | `(tactic| lz_lemma) => `(tactic| exact lz_eatMaybe _)

theorem lz_eat (t : Token) : Lz q p (eat t : P CIter B _) (fun _ => True) := by
  unfold eat
  lz
macro_rules | `(tactic| lz_lemma) => `(tactic| exact lz_eat _)

end
end Lazy
end Conch
