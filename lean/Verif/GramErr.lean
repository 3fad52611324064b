import Verif.GramComplete
import Verif.PropsGram
/-!
# Exact failing runs, without positions

`Fails m l b E r b'`: whatever the positions are, `m` on the tokens `l` fails with the error `E p q`,
where `p` is the position of the parser before and `q` its position after the run; it leaves the
tokens `r`.
-/
namespace Conch.Gram
open Conch

section
variable {B : Builder} {α β σ : Type}

/-- The position of a parser. -/
def posOf (L : List Spec.PTok) (e : SourcePos) : SourcePos := AIter.pos ⟨L, e⟩

/-- An exact failing run; the error depends on the position after it only. -/
def FailsAt (m : P AIter B α) (l : List Token) (b : B.State)
    (E : SourcePos → ParseError B.Error) (r : List Token) (b' : B.State) : Prop :=
  ∀ L e, toks L = l → ∃ R e', toks R = r ∧ m (st L e b) = (.err (E (posOf R e')), st R e' b')

/-- An exact failing run. -/
def Fails (m : P AIter B α) (l : List Token) (b : B.State)
    (E : SourcePos → SourcePos → ParseError B.Error) (r : List Token) (b' : B.State) : Prop :=
  ∀ L e, toks L = l → ∃ R e', toks R = r ∧ m (st L e b) = (.err (E (posOf L e) (posOf R e')), st R e' b')

theorem FailsAt.fails {m : P AIter B α} {l b r b'} {E : SourcePos → ParseError B.Error}
    (h : FailsAt m l b E r b') : Fails m l b (fun _ => E) r b' := h

theorem FailsAt.bind {m : P AIter B α} {f : α → P AIter B β} {l b a r b' E r' b''}
    (h : Run m l b a r b') (h' : FailsAt (f a) r b' E r' b'') : FailsAt (m >>= f) l b E r' b'' := by
  intro L e hL
  obtain ⟨R, e', hR, h1⟩ := h L e hL
  obtain ⟨R', e'', hR', h2⟩ := h' R e' hR
  exact ⟨R', e'', hR', by rw [bind_ok h1, h2]⟩

theorem FailsAt.left {m : P AIter B α} {f : α → P AIter B β} {l b E r b'}
    (h : FailsAt m l b E r b') : FailsAt (m >>= f) l b E r b' := by
  intro L e hL
  obtain ⟨R, e', hR, h1⟩ := h L e hL
  exact ⟨R, e', hR, bind_err h1⟩

theorem Fails.left {m : P AIter B α} {f : α → P AIter B β} {l b E r b'}
    (h : Fails m l b E r b') : Fails (m >>= f) l b E r b' := by
  intro L e hL
  obtain ⟨R, e', hR, h1⟩ := h L e hL
  exact ⟨R, e', hR, bind_err h1⟩

theorem FailsAt.getPos {f : SourcePos → P AIter B β} {l : List Token} {b r b'} {E : SourcePos → ParseError B.Error}
    (h : ∀ p, FailsAt (f p) l b E r b') : FailsAt (getPos >>= f) l b E r b' := by
  intro L e hL
  obtain ⟨R, e', hR, h1⟩ := h (posOf L e) L e hL
  exact ⟨R, e', hR, by rw [getPos_bind]; exact h1⟩

theorem Fails.getPos {f : SourcePos → P AIter B β} {l : List Token} {b r b'} {E}
    (h : ∀ p, FailsAt (f p) l b (E p) r b') : Fails (getPos >>= f) l b E r b' := by
  intro L e hL
  obtain ⟨R, e', hR, h1⟩ := h (posOf L e) L e hL
  exact ⟨R, e', hR, by rw [getPos_bind]; exact h1⟩

/-- `let pos ← getPos; fail (E pos)`. -/
theorem FailsAt.failPos {l : List Token} {b : B.State} {E : SourcePos → ParseError B.Error} :
    FailsAt (Conch.getPos >>= fun p => (fail (E p) : P AIter B β)) l b E l b :=
  fun L e hL => ⟨L, e, hL, rfl⟩

theorem FailsAt.fail {l : List Token} {b : B.State} {E : ParseError B.Error} :
    FailsAt (Conch.fail E : P AIter B β) l b (fun _ => E) l b :=
  fun L e hL => ⟨L, e, hL, rfl⟩

theorem FailsAt.peek {f : Option Token → P AIter B β} {l : List Token} {b E r b'}
    (h : FailsAt (f l.head?) l b E r b') : FailsAt (peek >>= f) l b E r b' :=
  .bind (Run.peek (f := Pure.pure) .pure) h

theorem Fails.peek {f : Option Token → P AIter B β} {l : List Token} {b E r b'}
    (h : Fails (f l.head?) l b E r b') : Fails (Conch.peek >>= f) l b E r b' := by
  intro L e hL
  obtain ⟨R, e', hR, h1⟩ := h L e hL
  refine ⟨R, e', hR, ?_⟩
  rw [peek_bind]
  subst hL
  rw [← h1]
  simp [toks]

theorem FailsAt.next {f : Option Token → P AIter B β} {t : Token} {l : List Token} {b E r b'}
    (h : FailsAt (f (some t)) l b E r b') : FailsAt (next >>= f) (t :: l) b E r b' :=
  .bind (Run.next (f := Pure.pure) .pure) h

theorem FailsAt.nextNil {f : Option Token → P AIter B β} {b E r b'}
    (h : FailsAt (f none) [] b E r b') : FailsAt (Conch.next >>= f) [] b E r b' :=
  .bind (Run.nextNil (f := Pure.pure) .pure) h

theorem FailsAt.eatYes {f : Bool → P AIter B β} {t : Token} {l : List Token} {b E r b'}
    (h : FailsAt (f true) l b E r b') : FailsAt (eatMaybe t >>= f) (t :: l) b E r b' := by
  intro L e hL
  replace hL := toks_cons hL
  obtain ⟨p, L, rfl, hL⟩ := hL
  obtain ⟨R, e', hR, h1⟩ := h L e hL
  exact ⟨R, e', hR, by rw [eatMaybe_bind_yes, h1]⟩

theorem FailsAt.eatNo {f : Bool → P AIter B β} {t : Token} {l : List Token} {b E r b'}
    (ht : ∀ l', l ≠ t :: l') (h : FailsAt (f false) l b E r b') :
    FailsAt (eatMaybe t >>= f) l b E r b' := by
  intro L e hL
  obtain ⟨R, e', hR, h1⟩ := h L e hL
  refine ⟨R, e', hR, ?_⟩
  rw [eatMaybe_bind_no, h1]
  cases L with
  | nil => simp
  | cons x L =>
    simp only [List.head?_cons, Option.map_some, ne_eq, Option.some.injEq]
    intro hx
    exact ht (toks L) (by rw [← hL, ← hx]; rfl)

/-- Failing runs of loops. -/
inductive LFails (body : σ → P AIter B (Step σ α)) (E : SourcePos → ParseError B.Error) :
    σ → List Token → B.State → List Token → B.State → Prop
  | stop {x l b r b'} : FailsAt (body x) l b E r b' → LFails body E x l b r b'
  | cont {x l b y l1 b1 r b'} : Run (body x) l b (.cont y) l1 b1 → l1.length < l.length →
      LFails body E y l1 b1 r b' → LFails body E x l b r b'

theorem LFails.fails {body : σ → P AIter B (Step σ α)} {E x l b r b'} (h : LFails body E x l b r b') :
    FailsAt (loop body x) l b E r b' := by
  suffices ∀ L e, toks L = l → ∃ R e', toks R = r ∧
      LoopRun body x (st L e b) (.err (E (posOf R e')), st R e' b') by
    intro L e hL
    obtain ⟨R, e', hR, h⟩ := this L e hL
    exact ⟨R, e', hR, h.loop⟩
  induction h with
  | stop h =>
    intro L e hL
    obtain ⟨R, e', hR, h⟩ := h L e hL
    exact ⟨R, e', hR, .err h⟩
  | cont h hlt _ ih =>
    intro L e hL
    obtain ⟨R, e', hR, h⟩ := h L e hL
    obtain ⟨R', e'', hR', h'⟩ := ih R e' hR
    refine ⟨R', e'', hR', .cont h ?_ h'⟩
    subst hL hR
    simpa using hlt

/-- The loop fails in its first round. -/
theorem Fails.loop {body : σ → P AIter B (Step σ α)} {x l b E r b'} (h : Fails (body x) l b E r b') :
    Fails (loop body x) l b E r b' := by
  intro L e hL
  obtain ⟨R, e', hR, h⟩ := h L e hL
  exact ⟨R, e', hR, (LoopRun.err h).loop⟩

theorem Fails.noSkip {f : Unit → P AIter B β} {l : List Token} {b E r b'} (hn : NoBlank l)
    (h : Fails (f ()) l b E r b') : Fails (skipWhitespace >>= f) l b E r b' := by
  intro L e hL
  obtain ⟨R, e', hR, h1⟩ := h L e hL
  exact ⟨R, e', hR, by rw [bind_ok (skipWhitespace_noop (lift_noBlank (hL ▸ hn))), h1]⟩

/-! ## Public methods -/

/-- Calling `m` fails with the error `E p q`, where `p` and `q` are the positions before and after the
call; the tokens `r` are left. -/
def FailsWith (m : Method) (s : PSt CIter B) (E : SourcePos → SourcePos → ParseError B.Error)
    (r : List Token) (b : B.State) : Prop :=
  (m.run s).1 = .err (E s.pos (m.run s).2.pos) ∧ (m.run s).2.tokens = r ∧ (m.run s).2.b = b

theorem failsWith_at {m : Method} {s : PSt CIter B} {E r b'}
    (h : ∃ R e, toks R = r ∧ m.run (st s.rest s.it.1.abs.endPos s.b) =
      (.err (E (posOf s.rest s.it.1.abs.endPos) (posOf R e)), st R e b')) : FailsWith m s E r b' := by
  obtain ⟨R, e, hR, heq⟩ := h
  obtain ⟨h1, h2, h3⟩ := gives_of_eq heq
  have h4 := Method.run_abs m s
  have e2 : (m.run s).2.pos = posOf R e := by
    change m.run (st s.rest s.it.1.abs.endPos s.b) = _ at h4
    rw [heq, Prod.mk.injEq] at h4
    show (m.run s).2.it.1.pos = _
    rw [TokenIter.pos_eq (m.run s).2.it.2]
    exact (congrArg (fun x => x.it.pos) h4.2).symm
  have e1 : s.pos = posOf s.rest s.it.1.abs.endPos := TokenIter.pos_eq s.it.2
  exact ⟨by rw [h1, e1, e2], by rw [PSt.tokens, h2]; exact hR, h3⟩

theorem failsWith_of {m : Method} {s : PSt CIter B} {E r b'}
    (h : Fails m.run s.tokens s.b E r b') : FailsWith m s E r b' :=
  failsWith_at (h s.rest s.it.1.abs.endPos rfl)

/-- A failing run whose error reports a position in between. -/
def FailsMid (m : P AIter B α) (l : List Token) (b : B.State)
    (E : SourcePos → SourcePos → ParseError B.Error) (r : List Token) (b' : B.State) : Prop :=
  ∀ L e, toks L = l → ∃ p R e', toks R = r ∧ m (st L e b) = (.err (E p (posOf R e')), st R e' b')

theorem Fails.mid {m : P AIter B α} {l b E r b'} (h : Fails m l b E r b') : FailsMid m l b E r b' :=
  fun L e hL => ⟨_, h L e hL⟩

theorem FailsMid.bind {m : P AIter B α} {f : α → P AIter B β} {l b a r b' E r' b''}
    (h : Run m l b a r b') (h' : FailsMid (f a) r b' E r' b'') : FailsMid (m >>= f) l b E r' b'' := by
  intro L e hL
  obtain ⟨R, e', hR, h1⟩ := h L e hL
  obtain ⟨p, R', e'', hR', h2⟩ := h' R e' hR
  exact ⟨p, R', e'', hR', by rw [bind_ok h1, h2]⟩

theorem FailsMid.left {m : P AIter B α} {f : α → P AIter B β} {l b E r b'}
    (h : FailsMid m l b E r b') : FailsMid (m >>= f) l b E r b' := by
  intro L e hL
  obtain ⟨p, R, e', hR, h1⟩ := h L e hL
  exact ⟨p, R, e', hR, bind_err h1⟩

theorem FailsMid.peek {f : Option Token → P AIter B β} {l : List Token} {b E r b'}
    (h : FailsMid (f l.head?) l b E r b') : FailsMid (Conch.peek >>= f) l b E r b' :=
  .bind (Run.peek (f := Pure.pure) .pure) h

theorem FailsMid.next {f : Option Token → P AIter B β} {t : Token} {l : List Token} {b E r b'}
    (h : FailsMid (f (some t)) l b E r b') : FailsMid (Conch.next >>= f) (t :: l) b E r b' :=
  .bind (Run.next (f := Pure.pure) .pure) h

theorem failsMid_of {m : Method} {s : PSt CIter B} {E r b'}
    (h : FailsMid m.run s.tokens s.b E r b') : ∃ p, FailsWith m s (fun _ => E p) r b' := by
  obtain ⟨p, h⟩ := h s.rest s.it.1.abs.endPos rfl
  exact ⟨p, failsWith_at h⟩

theorem run_failsMid {α : Type} {f : Rec AIter B → P AIter B α} {l : List Token} {b : B.State} {E r b'}
    (h : FailsMid (f (Rec.fix (l.length + 1))) l b E r b') : FailsMid (Conch.run f) l b E r b' := by
  intro L e hL
  obtain ⟨p, R, e', hR, heq⟩ := h L e hL
  refine ⟨p, R, e', hR, ?_⟩
  have : L.length = l.length := by rw [← hL]; simp
  rw [← this] at heq
  exact heq

theorem run_fails {α : Type} {f : Rec AIter B → P AIter B α} {l : List Token} {b : B.State} {E r b'}
    (h : Fails (f (Rec.fix (l.length + 1))) l b E r b') : Fails (Conch.run f) l b E r b' := by
  intro L e hL
  obtain ⟨R, e', hR, heq⟩ := h L e hL
  refine ⟨R, e', hR, ?_⟩
  have : L.length = l.length := by rw [← hL]; simp
  rw [← this] at heq
  exact heq

end
end Conch.Gram
