import Verif.BlankSpec
import Verif.ParserCmd
import Verif.PropsBalanced
/-!
# Exact results of parser computations on the abstract stream: the rules
-/
namespace Conch
open Spec

section
variable {B : Builder} {α β σ : Type}

/-- The parser state with remaining tokens `l`, end position `e` and builder state `b`. -/
abbrev st (l : List PTok) (e : SourcePos) (b : B.State) : PSt AIter B := ⟨⟨l, e⟩, b⟩

theorem bind_ok {I : Type} {m : P I B α} {f : α → P I B β} {s s' : PSt I B} {a : α}
    (h : m s = (.ok a, s')) : (m >>= f) s = f a s' := by
  show P.bind m f s = _
  simp [P.bind, h]

theorem bind_err {I : Type} {m : P I B α} {f : α → P I B β} {s s' : PSt I B} {e}
    (h : m s = (.err e, s')) : (m >>= f) s = (.err e, s') := by
  show P.bind m f s = _
  simp [P.bind, h]

theorem pure_eq {I : Type} (a : α) (s : PSt I B) : (pure a : P I B α) s = (.ok a, s) := rfl

theorem fail_eq {I : Type} (e) (s : PSt I B) : (fail e : P I B α) s = (.err e, s) := rfl

theorem peek_bind (f : Option Token → P AIter B β) (l e) (b : B.State) :
    (peek >>= f) (st l e b) = f (l.head?.map (·.2)) (st l e b) := rfl

theorem getPos_bind (f : SourcePos → P AIter B β) (l e) (b : B.State) :
    (getPos >>= f) (st l e b) = f (AIter.pos ⟨l, e⟩) (st l e b) := rfl

theorem next_bind_cons (f : Option Token → P AIter B β) (x l e) (b : B.State) :
    (next >>= f) (st (x :: l) e b) = f (some x.2) (st l e b) := rfl

theorem next_bind_nil (f : Option Token → P AIter B β) (e) (b : B.State) :
    (next >>= f) (st [] e b) = f none (st [] e b) := rfl

theorem lookahead_bind {g : TokStream.MP AIter → α × TokStream.MP AIter} {f : α → P AIter B β}
    {l e} {b : B.State} (h : (g ⟨⟨l, e⟩, l.map (·.2)⟩).2.it = ⟨l, e⟩) :
    (lookahead g >>= f) (st l e b) = f (g ⟨⟨l, e⟩, l.map (·.2)⟩).1 (st l e b) := by
  show P.bind (lookahead g) f _ = _
  unfold P.bind lookahead
  show f (g ⟨⟨l, e⟩, l.map (·.2)⟩).1 ⟨(g ⟨⟨l, e⟩, l.map (·.2)⟩).2.it, b⟩ = _
  rw [h]

theorem eatMaybe_bind_yes (f : Bool → P AIter B β) (p t l e) (b : B.State) :
    (eatMaybe t >>= f) (st ((p, t) :: l) e b) = f true (st l e b) := by
  apply bind_ok
  unfold eatMaybe
  rw [peek_bind, List.head?_cons, Option.map_some, if_pos rfl]
  rfl

theorem eatMaybe_bind_no (f : Bool → P AIter B β) {t l e} {b : B.State}
    (h : l.head?.map (·.2) ≠ some t) :
    (eatMaybe t >>= f) (st l e b) = f false (st l e b) := by
  apply bind_ok
  unfold eatMaybe
  rw [peek_bind, if_neg h]
  rfl

theorem eat_bind (f : Unit → P AIter B β) (p t l e) (b : B.State) :
    (eat t >>= f) (st ((p, t) :: l) e b) = f () (st l e b) := by
  apply bind_ok
  unfold eat
  rw [eatMaybe_bind_yes]
  rfl

/-- How a loop runs: `LoopRun body x s r`. -/
inductive LoopRun (body : σ → P AIter B (Step σ α)) :
    σ → PSt AIter B → Res B.Error α × PSt AIter B → Prop
  | done {x s a s'} : body x s = (.ok (.done a), s') → LoopRun body x s (.ok a, s')
  | err {x s e s'} : body x s = (.err e, s') → LoopRun body x s (.err e, s')
  | cont {x s y s1 r} : body x s = (.ok (.cont y), s1) →
      s1.it.rest.length < s.it.rest.length → LoopRun body y s1 r → LoopRun body x s r

theorem LoopRun.loopN {body : σ → P AIter B (Step σ α)} {x s r} (h : LoopRun body x s r) (n : Nat)
    (hn : s.it.rest.length < n) : loopN body n x s = r := by
  induction h generalizing n with
  | done h =>
    obtain ⟨n, rfl⟩ : ∃ m, n = m + 1 := ⟨n - 1, by omega⟩
    unfold Conch.loopN; rw [bind_ok h]; rfl
  | err h =>
    obtain ⟨n, rfl⟩ : ∃ m, n = m + 1 := ⟨n - 1, by omega⟩
    unfold Conch.loopN; rw [bind_err h]
  | cont h hl _ ih =>
    obtain ⟨n, rfl⟩ : ∃ m, n = m + 1 := ⟨n - 1, by omega⟩
    unfold Conch.loopN; rw [bind_ok h]; exact ih n (by omega)

theorem LoopRun.loop {body : σ → P AIter B (Step σ α)} {x s r} (h : LoopRun body x s r) :
    loop body x s = r := h.loopN _ (by simp [TokStream.len])

end
end Conch
