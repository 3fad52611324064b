import Verif.PropsLayout
import Verif.PropsCost
/-!
# Errors that no continuation can repair: the calculus

Two runs are compared: one on the tokens `l` of complete lines, one on `l` followed by more tokens. As
long as the first run has tokens left (it is *alive*), both do the same. `Ex m₁ m₂`: if `m₂` succeeds on
the longer stream, then `m₁` on the shorter one does the same, or uses up its tokens (is *dead* from
then on), or fails with an error that says no more than that the tokens are used up.
The two programs differ in their budgets only.
-/
namespace Conch
open Spec
namespace Final

/-- The builder of the comparison: it builds nothing. -/
abbrev S := PSt AIter EmptyBuilder

/-- Programs with that builder. -/
abbrev Q (α : Type) := P AIter EmptyBuilder α

/-- Errors that may be due to the end of the input. -/
def Soft : ParseError Empty → Prop
  | .Unexpected .. | .BadIdent .. | .BadSubst .. => False
  | _ => True

/-- Tokens of complete lines. -/
def Whole (l : List (SourcePos × Token)) : Prop := ∃ v p, l = v ++ [(p, .Newline)]

/-- The first stream is whole, and the second one continues it. -/
def Live (s1 s2 : S) : Prop := (∃ y, s2.it.rest = s1.it.rest ++ y) ∧ Whole s1.it.rest

/-- All tokens are used up. -/
def Dead (s : S) : Prop := s.it.rest = []

section
variable {α β σ : Type}

/-- Outcomes of a run that has used up its tokens. -/
def DeadOut : Res Empty α × S → Prop
  | (.ok _, s) => Dead s
  | (.err e, s) => Dead s ∧ Soft e
  | _ => True

/-- Outcomes of the first run when the second one returns `a` and leaves `s2`. -/
def Out (a : α) (s2 : S) : Res Empty α × S → Prop
  | (.ok a1, s1) => (a1 = a ∧ Live s1 s2) ∨ Dead s1
  | (.err e, s1) => Dead s1 ∧ Soft e
  | _ => True

/-- The first run is stuck: a panic or an exhausted budget. -/
def Stuck : Res Empty α → Prop
  | .panic _ | .fuel => True
  | _ => False

theorem DeadOut.out {a : α} {s2 : S} {z : Res Empty α × S} (h : DeadOut z) : Out a s2 z := by
  obtain ⟨r, s⟩ := z
  cases r with
  | ok a => exact .inr h
  | err e => exact h
  | panic => trivial
  | fuel => trivial

/-- See the head of this file; `edge` is the case that both runs just read the same last token of the
first stream. -/
structure Ed (m1 m2 : Q α) : Prop where
  live : ∀ s1 s2 a s2', Live s1 s2 → m2 s2 = (.ok a, s2') → Out a s2' (m1 s1)
  edge : ∀ s1 s2 a s2', Dead s1 → m2 s2 = (.ok a, s2') → DeadOut (m1 s1)
  same : ∀ s a s', m2 s = (.ok a, s') → m1 s = (.ok a, s') ∨ Stuck (m1 s).1

/-- See the head of this file. -/
structure Ex (m1 m2 : Q α) : Prop where
  live : ∀ s1 s2 a s2', Live s1 s2 → m2 s2 = (.ok a, s2') → Out a s2' (m1 s1)
  dead : ∀ s1, Dead s1 → DeadOut (m1 s1)
  same : ∀ s a s', m2 s = (.ok a, s') → m1 s = (.ok a, s') ∨ Stuck (m1 s).1

theorem Ex.ed {m1 m2 : Q α} (h : Ex m1 m2) : Ed m1 m2 :=
  ⟨h.live, fun s1 _ _ _ hd _ => h.dead s1 hd, h.same⟩

/-- One program. -/
theorem Ex.one {m : Q α} (h1 : ∀ s1 s2 a s2', Live s1 s2 → m s2 = (.ok a, s2') → Out a s2' (m s1))
    (h2 : ∀ s1, Dead s1 → DeadOut (m s1)) : Ex m m := ⟨h1, h2, fun _ _ _ h => .inl h⟩

theorem ok_bind {m : Q α} {f : α → Q β} {s : S} {b : β} {s' : S} (h : (m >>= f) s = (.ok b, s')) :
    ∃ a s1, m s = (.ok a, s1) ∧ f a s1 = (.ok b, s') := by
  change P.bind m f s = _ at h
  unfold P.bind at h
  generalize m s = z at h
  obtain ⟨r, s1⟩ := z
  cases r with
  | ok a => exact ⟨a, s1, rfl, h⟩
  | err e => simp at h
  | panic n => simp at h
  | fuel => simp at h

theorem bind_dead {m : Q α} {f : α → Q β} {s : S} (h : DeadOut (m s))
    (hf : ∀ a s1, m s = (.ok a, s1) → Dead s1 → DeadOut (f a s1)) : DeadOut ((m >>= f) s) := by
  show DeadOut (P.bind m f s)
  unfold P.bind
  generalize m s = z at h hf
  obtain ⟨r, s1⟩ := z
  cases r with
  | ok a => exact hf a s1 rfl h
  | err e => exact h
  | panic n => trivial
  | fuel => trivial

theorem bind_live {m : Q α} {f : α → Q β} {s1 s2' s2'' : S} {a : α} {b : β} (h : Out a s2' (m s1))
    (h1 : ∀ s, Live s s2' → Out b s2'' (f a s))
    (h2 : ∀ a1 s, m s1 = (.ok a1, s) → Dead s → DeadOut (f a1 s)) : Out b s2'' ((m >>= f) s1) := by
  show Out b s2'' (P.bind m f s1)
  unfold P.bind
  generalize m s1 = z at h h2
  obtain ⟨r, s⟩ := z
  cases r with
  | ok a1 =>
    rcases h with ⟨rfl, h⟩ | h
    · exact h1 s h
    · exact (h2 a1 s rfl h).out
  | err e => exact h
  | panic n => trivial
  | fuel => trivial

theorem bind_same {m1 m2 : Q α} {f1 f2 : α → Q β} {s s1 s2 : S} {a : α} {b : β}
    (h : m1 s = (.ok a, s1) ∨ Stuck (m1 s).1)
    (hf : f1 a s1 = (.ok b, s2) ∨ Stuck (f1 a s1).1) :
    (m1 >>= f1) s = (.ok b, s2) ∨ Stuck ((m1 >>= f1) s).1 := by
  show P.bind m1 f1 s = _ ∨ Stuck (P.bind m1 f1 s).1
  unfold P.bind
  generalize m1 s = z at h
  obtain ⟨r, s'⟩ := z
  rcases h with h | h
  · cases h; exact hf
  · cases r with
    | ok a => exact h.elim
    | err e => exact h.elim
    | panic n => exact .inr trivial
    | fuel => exact .inr trivial

theorem ex_bind {m1 m2 : Q α} {f1 f2 : α → Q β} (h : Ex m1 m2) (hf : ∀ a, Ex (f1 a) (f2 a)) :
    Ex (m1 >>= f1) (m2 >>= f2) where
  live s1 s2 b s2'' hl e := by
    obtain ⟨a, s2', e1, e2⟩ := ok_bind e
    exact bind_live (h.live s1 s2 a s2' hl e1) (fun s hs => (hf a).live _ _ _ _ hs e2)
      fun a1 s _ hs => (hf a1).dead s hs
  dead s1 hd := bind_dead (h.dead s1 hd) fun a s _ hs => (hf a).dead s hs
  same s b s' e := by
    obtain ⟨a, s2', e1, e2⟩ := ok_bind e
    exact bind_same (m2 := m2) (f2 := f2) (h.same _ _ _ e1) ((hf a).same _ _ _ e2)

theorem ex_pure {a : α} : Ex (pure a : Q α) (pure a) :=
  .one (fun s1 s2 a s2' hl e => by cases e; exact .inl ⟨rfl, hl⟩) fun _ hd => hd

theorem ex_fail {e : ParseError Empty} (h : Soft e) : Ex (fail e : Q α) (fail e) :=
  .one (fun s1 s2 a s2' _ e => by cases e) fun _ hd => ⟨hd, h⟩

theorem ed_fail {e : ParseError Empty} : Ed (fail e : Q α) (fail e) :=
  ⟨fun _ _ _ _ _ e => (by cases e), fun _ _ _ _ _ e => (by cases e), fun _ _ _ e => .inl e⟩

theorem ex_panicAt {n : Nat} : Ex (panicAt n : Q α) (panicAt n) :=
  .one (fun s1 s2 a s2' _ e => by cases e) fun _ _ => trivial

theorem ex_outOfFuel {m : Q α} : Ex (outOfFuel : Q α) m :=
  ⟨fun _ _ _ _ _ _ => trivial, fun _ _ => trivial, fun _ _ _ _ => .inr trivial⟩

theorem Ex.alone {m1 m2 : Q α} (h : Ex m1 m2) : Ex m1 outOfFuel :=
  ⟨fun _ _ _ _ _ e => (by cases e), h.dead, fun _ _ _ e => (by cases e)⟩

theorem Live.head {s1 s2 : S} (h : Live s1 s2) : ∃ x r1 r2 e1 e2 b1 b2, s1 = ⟨⟨x :: r1, e1⟩, b1⟩ ∧
    s2 = ⟨⟨x :: r2, e2⟩, b2⟩ ∧ ((∃ y, r2 = r1 ++ y) ∧ (Whole r1 ∨ r1 = [] ∧ x.2 = .Newline)) := by
  obtain ⟨⟨l1, e1⟩, b1⟩ := s1
  obtain ⟨⟨l2, e2⟩, b2⟩ := s2
  obtain ⟨⟨y, hy⟩, v, p, hv⟩ := h
  simp only at hy hv
  subst hy
  cases v with
  | nil =>
    cases hv
    exact ⟨_, _, _, _, _, _, _, rfl, rfl, ⟨y, rfl⟩, .inr ⟨rfl, rfl⟩⟩
  | cons x v =>
    cases hv
    exact ⟨_, _, _, _, _, _, _, rfl, rfl, ⟨y, rfl⟩, .inl ⟨v, p, rfl⟩⟩

theorem ex_getPos : Ex (getPos : Q SourcePos) getPos := by
  refine .one (fun s1 s2 a s2' hl e => ?_) fun _ hd => hd
  obtain ⟨x, r1, r2, e1, e2, b1, b2, rfl, rfl, -⟩ := hl.head
  cases e
  exact .inl ⟨rfl, hl⟩

theorem ex_peek : Ex (peek : Q (Option Token)) peek := by
  refine .one (fun s1 s2 a s2' hl e => ?_) fun _ hd => hd
  obtain ⟨x, r1, r2, e1, e2, b1, b2, rfl, rfl, -⟩ := hl.head
  cases e
  exact .inl ⟨rfl, hl⟩

theorem dead_eq {s : S} (h : Dead s) : ∃ e b, s = ⟨⟨[], e⟩, b⟩ := by
  obtain ⟨⟨l, e⟩, b⟩ := s
  cases h
  exact ⟨e, b, rfl⟩

/-- Reading a token: the continuation may fail because of the token. -/
theorem ex_next_bind {f1 f2 : Option Token → Q β} (h1 : ∀ t, Ed (f1 (some t)) (f2 (some t)))
    (h2 : Ex (f1 none) (f2 none)) : Ex (next >>= f1) (next >>= f2) where
  live s1 s2 b s2'' hl e := by
    obtain ⟨x, r1, r2, e1, e2, b1, b2, rfl, rfl, hy, hw⟩ := hl.head
    rcases hw with hw | ⟨rfl, hw⟩
    · exact (h1 x.2).live _ _ b s2'' ⟨hy, hw⟩ e
    · exact ((h1 x.2).edge ⟨⟨[], e1⟩, b1⟩ ⟨⟨r2, e2⟩, b2⟩ b s2'' rfl e).out
  dead s1 hd := by
    obtain ⟨e, b, rfl⟩ := dead_eq hd
    exact h2.dead _ rfl
  same s b s' e := by
    obtain ⟨⟨l, en⟩, b0⟩ := s
    cases l with
    | nil => exact h2.same _ _ _ e
    | cons x l => exact (h1 x.2).same _ _ _ e

theorem ex_next_const {k1 k2 : Q β} (h : Ex k1 k2) : Ex (next >>= fun _ => k1) (next >>= fun _ => k2) :=
  ex_next_bind (fun _ => h.ed) h

theorem ex_call (c : Call EmptyBuilder.toBTypes) :
    Ex (call (I := AIter) (B := EmptyBuilder) c) (call (I := AIter) (B := EmptyBuilder) c) := by
  have key : ∀ s : S, ∃ a, call (I := AIter) (B := EmptyBuilder) c s = (.ok a, s) := by
    intro s
    cases c <;> exact ⟨_, rfl⟩
  refine .one (fun s1 s2 a s2' hl e => ?_) fun s hd => ?_
  · obtain ⟨a1, h1⟩ := key s1
    obtain ⟨a2, h2⟩ := key s2
    rw [h2] at e
    cases e
    rw [h1]
    refine .inl ⟨?_, hl⟩
    cases c <;> rfl
  · obtain ⟨a1, h1⟩ := key s
    rw [h1]
    exact hd

theorem ex_lookahead {f : TokStream.MP AIter → α × TokStream.MP AIter}
    (h : ∀ m : AMultipeek, (f m).2.it = m.it)
    (hv : ∀ l y i j, l.getLast? = some .Newline → (f ⟨i, l⟩).1 = (f ⟨j, l ++ y⟩).1) :
    Ex (lookahead (I := AIter) f : Q α) (lookahead (I := AIter) f) := by
  have key : ∀ s : S, (lookahead (I := AIter) f : Q α) s = (.ok (f (TokStream.mpNew s.it)).1, s) := by
    intro s
    show (_, PSt.mk ((f (TokStream.mpNew s.it)).2 : AMultipeek).it s.b) = _
    rw [h]
    rfl
  refine .one (fun s1 s2 a s2' hl e => ?_) fun s hd => ?_
  · rw [key] at e ⊢
    cases e
    refine .inl ⟨?_, hl⟩
    obtain ⟨⟨y, hy⟩, v, p, hv'⟩ := hl
    have e2 : s2.it.toks = s1.it.toks ++ y.map (·.2) := by simp [AIter.toks, hy]
    show (f ⟨s1.it, s1.it.toks⟩).1 = (f ⟨s2.it, s2.it.toks⟩).1
    rw [e2]
    exact hv _ _ _ _ (by simp [AIter.toks, hv'])
  · rw [key]
    exact hd

theorem ex_loopN {body1 body2 : σ → Q (Step σ α)} (h : ∀ x, Ex (body1 x) (body2 x)) (n : Nat) :
    (∀ x m s1 s2 a s2', Live s1 s2 → loopN body2 m x s2 = (.ok a, s2') → Out a s2' (loopN body1 n x s1)) ∧
    (∀ x s1, Dead s1 → DeadOut (loopN body1 n x s1)) ∧
    ∀ x s a s', loopN body2 n x s = (.ok a, s') → loopN body1 n x s = (.ok a, s') ∨ Stuck (loopN body1 n x s).1 := by
  induction n with
  | zero => exact ⟨fun _ _ _ _ _ _ _ _ => trivial, fun _ _ _ => trivial, fun _ _ _ _ _ => .inr trivial⟩
  | succ n ih =>
    obtain ⟨i1, i2, i3⟩ := ih
    have hd : ∀ x s1, Dead s1 → DeadOut (loopN body1 (n + 1) x s1) := by
      intro x s1 hs
      refine bind_dead ((h x).dead s1 hs) fun r s _ hs => ?_
      cases r with
      | cont y => exact i2 y s hs
      | done a => exact hs
    refine ⟨fun x m s1 s2 a s2' hl e => ?_, hd, fun x s a s' e => ?_⟩
    · cases m with
      | zero => cases e
      | succ m =>
        obtain ⟨r, s3, e1, e2⟩ := ok_bind e
        refine bind_live ((h x).live _ _ _ _ hl e1) (fun s hs => ?_) fun r1 s _ hs => ?_
        · cases r with
          | cont y => exact i1 y m s s3 a s2' hs e2
          | done b => cases e2; exact .inl ⟨rfl, hs⟩
        · cases r1 with
          | cont y => exact i2 y s hs
          | done b => exact hs
    · obtain ⟨r, s3, e1, e2⟩ := ok_bind e
      refine bind_same (m2 := body2 x) (f2 := fun r => match r with
        | .cont y => loopN body2 n y
        | .done a => pure a) ((h x).same _ _ _ e1) ?_
      cases r with
      | cont y => exact i3 y s3 a s' e2
      | done b => exact .inl e2

theorem ex_loop {body1 body2 : σ → Q (Step σ α)} {x : σ} (h : ∀ x, Ex (body1 x) (body2 x)) :
    Ex (loop body1 x) (loop body2 x) where
  live s1 s2 a s2' hl e := (ex_loopN h _).1 x _ s1 s2 a s2' hl e
  dead s1 hd := (ex_loopN h _).2.1 x s1 hd
  same s a s' e := (ex_loopN h _).2.2 x s a s' e

/-- The budget may depend on the length of the stream. -/
theorem ex_len {k : Nat} {m1 m2 : Nat → Q α} (h : ∀ n n', Ex (m1 n) (m2 n')) :
    Ex (fun s => m1 (TokStream.len s.it + k) s) (fun s => m2 (TokStream.len s.it + k) s) where
  live s1 s2 a s2' hl e := (h _ _).live s1 s2 a s2' hl e
  dead s1 hd := (h _ 0).dead s1 hd
  same s a s' e := (h _ _).same s a s' e

end

attribute [irreducible] Live Dead

/-! ## Automation -/

/-- Closes a goal with a known lemma. Extended after every lemma below. -/
syntax "ex_lemma" : tactic

/-- Closes a goal about a single operation. -/
macro "ex_atom" : tactic => `(tactic| first
    | with_reducible ex_lemma
    | with_reducible exact ex_peek
    | with_reducible exact ex_getPos
    | with_reducible exact ex_pure
    | with_reducible exact ex_panicAt
    | with_reducible exact ex_call _
    | ((with_reducible refine ex_fail ?_); exact trivial))

/-- One step. -/
macro "ex_step" : tactic => `(tactic| first
    | ex_atom
    | with_reducible refine ex_next_const ?_
    | ((with_reducible refine ex_next_bind (fun _ => ?_) ?_) <;> try dsimp only)
    | (((with_reducible refine ex_bind ?h ?_); (case h => ex_atom)); intro _)
    | with_reducible exact ed_fail
    | ((with_reducible refine Ex.ed ?_); ex_atom)
    | split
    | with_reducible refine Ex.ed ?_)

/-- Runs `ex_step` until it does not apply any more. -/
macro "ex" : tactic => `(tactic| repeat' ex_step)

section
variable {α β σ : Type}

theorem ex_unexpected : Ex (unexpected : Q α) unexpected := by
  unfold unexpected
  ex
macro_rules | `(tactic| ex_lemma) => `(tactic| exact ex_unexpected)

theorem ex_eatMaybe (t : Token) : Ex (eatMaybe t : Q Bool) (eatMaybe t) := by
  unfold eatMaybe
  ex
macro_rules | `(tactic| ex_lemma) => `(tactic| exact ex_eatMaybe _)

theorem ex_eat (t : Token) : Ex (eat t : Q Unit) (eat t) := by
  unfold eat
  ex
macro_rules | `(tactic| ex_lemma) => `(tactic| exact ex_eat _)

end
end Final
end Conch
