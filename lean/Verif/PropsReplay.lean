import Verif.ReplayMaps
import Verif.PropsCallOrder
/-!
# C60: parsing and building can be separated
-/
namespace Conch
open Spec Gram

/-! ## Values with their numbers -/

/-- Values with numbers. -/
@[reducible] def tagged (T : BTypes) : BTypes :=
  { Command := Nat × T.Command, CommandList := Nat × T.CommandList, ListableCommand := Nat × T.ListableCommand
    PipeableCommand := Nat × T.PipeableCommand, CompoundCommand := Nat × T.CompoundCommand
    Word := Nat × T.Word, Redirect := Nat × T.Redirect, Error := T.Error }

/-- The numbers. -/
@[reducible] def tagOf (T : BTypes) : BMap (tagged T) handles :=
  { command := Prod.fst, commandList := Prod.fst, listable := Prod.fst, pipeable := Prod.fst, compound := Prod.fst
    word := Prod.fst, redirect := Prod.fst, error := fun _ => () }

/-- The values. -/
@[reducible] def valOf (T : BTypes) : BMap (tagged T) T :=
  { command := Prod.snd, commandList := Prod.snd, listable := Prod.snd, pipeable := Prod.snd, compound := Prod.snd
    word := Prod.snd, redirect := Prod.snd, error := id }

/-- The result of a call with a number. -/
def tagRet {T : BTypes} (n : Nat) : (c : Call (tagged T)) → (c.map (valOf T)).Ret → c.Ret
  | .completeCommand .., a => (n, a)
  | .andOrList .., a => (n, a)
  | .pipeline .., a => (n, a)
  | .simpleCommand .., a => (n, a)
  | .braceGroup .., a => (n, a)
  | .subshell .., a => (n, a)
  | .loopCommand .., a => (n, a)
  | .ifCommand .., a => (n, a)
  | .forCommand .., a => (n, a)
  | .caseCommand .., a => (n, a)
  | .compoundCommandIntoPipeable .., a => (n, a)
  | .functionDeclaration .., a => (n, a)
  | .comments .., a => a
  | .word .., a => (n, a)
  | .redirect .., a => (n, a)

theorem tagRet_val {T : BTypes} (n : Nat) (c : Call (tagged T)) (a : (c.map (valOf T)).Ret) :
    c.mapRet (valOf T) (tagRet n c a) = a := by
  cases c <;> rfl

theorem tagRet_tag {T : BTypes} (n : Nat) (c : Call (tagged T)) (a : (c.map (valOf T)).Ret) :
    c.mapRet (tagOf T) (tagRet n c a) = handle n (c.map (tagOf T)) := by
  cases c <;> rfl

/-- The builder `B` with numbers on its values. -/
@[reducible] def Tagged (B : Builder) : Builder where
  toBTypes := tagged B.toBTypes
  State := Nat × B.State
  call c s :=
    match B.call (c.map (valOf B.toBTypes)) s.2 with
    | (.ok a, b') => (.ok (tagRet s.1 c a), (s.1 + 1, b'))
    | (.err e, b') => (.err e, (s.1, b'))
    | (.panic, b') => (.panic, (s.1, b'))

section
variable {B : Builder}

theorem Tagged.neverFails (hB : NeverFails B) : NeverFails (Tagged B) := by
  rintro c ⟨n, b⟩ hc
  obtain ⟨a, b', h⟩ := hB (c.map (valOf B.toBTypes)) b (CallOk.map _ hc)
  exact ⟨tagRet n c a, (n + 1, b'), by simp only [h]⟩

theorem Logged.neverFails (hB : NeverFails B) : NeverFails (Logged B) := by
  rintro c ⟨es, b⟩ hc
  obtain ⟨a, b', h⟩ := hB c b hc
  exact ⟨a, (es ++ [⟨c, .ok a⟩], b'), by simp only [h]⟩

/-- What the calls with numbers are without them. -/
inductive Trace : List (Event B) → B.State → List (Event (Tagged B)) → List (Call handles) → List (Event B) →
    B.State → Prop
  | done {es b} : Trace es b [] [] es b
  | call {es b ts calls es' b' b1} (c : Call (tagged B.toBTypes)) (a : (c.map (valOf B.toBTypes)).Ret) :
      B.call (c.map (valOf B.toBTypes)) b = (.ok a, b1) →
      Trace (es ++ [⟨c.map (valOf B.toBTypes), .ok a⟩]) b1 ts calls es' b' →
      Trace es b (⟨c, .ok (tagRet es.length c a)⟩ :: ts) (c.map (tagOf B.toBTypes) :: calls) es' b'

theorem Trace.snoc {es es' : List (Event B)} {b b' b1 : B.State} {ts : List (Event (Tagged B))}
    {calls : List (Call handles)} (h : Trace es b ts calls es' b') {c : Call (tagged B.toBTypes)}
    {a : (c.map (valOf B.toBTypes)).Ret} (hc : B.call (c.map (valOf B.toBTypes)) b' = (.ok a, b1)) :
    Trace es b (ts ++ [⟨c, .ok (tagRet es'.length c a)⟩]) (calls ++ [c.map (tagOf B.toBTypes)])
      (es' ++ [⟨c.map (valOf B.toBTypes), .ok a⟩]) b1 := by
  induction h with
  | done => exact .call c a hc .done
  | call c' a' h1 _ ih => exact .call c' a' h1 (ih hc)

theorem Trace.length {es es' : List (Event B)} {b b' : B.State} {ts : List (Event (Tagged B))}
    {calls : List (Call handles)} (h : Trace es b ts calls es' b') : es'.length = es.length + calls.length := by
  induction h with
  | done => rfl
  | call c a _ _ ih => rw [ih]; simp; omega

/-- A value with its number is what the call of this number returned. -/
def Known (es : List (Event B)) : Val (tagged B.toBTypes) → Prop :=
  Agree (tagOf B.toBTypes) (values es) (valOf B.toBTypes) (present B.toBTypes)

theorem valueOf_append {es es' : List (Event B)} {n : Nat} {v : Val B.toBTypes} (h : valueOf es n = some v) :
    valueOf (es ++ es') n = some v := by
  unfold valueOf at h ⊢
  cases e : es[n]? with
  | none => rw [e] at h; cases h
  | some ev =>
    have : (es ++ es')[n]? = some ev := by
      rw [List.getElem?_append_left (List.getElem?_eq_some_iff.1 e).1, e]
    rw [this]
    rw [e] at h
    exact h

theorem Known.append {es : List (Event B)} (es' : List (Event B)) {v : Val (tagged B.toBTypes)} (h : Known es v) :
    Known (es ++ es') v := by
  cases v with
  | command x | commandList x | listable x | pipeable x | compound x | word x | redirect x =>
    simp only [Known, Agree, AgreeAt, values, present] at h ⊢
    cases e : valueOf es x.1 with
    | none => rw [e] at h; cases h
    | some v => rw [valueOf_append e]; rw [e] at h; exact h

theorem known_result {es : List (Event B)} (c : Call (tagged B.toBTypes)) (a : (c.map (valOf B.toBTypes)).Ret) :
    ∀ v ∈ result c (tagRet es.length c a), Known (es ++ [⟨c.map (valOf B.toBTypes), .ok a⟩]) v := by
  intro v hv
  have key : valueOf (es ++ [⟨c.map (valOf B.toBTypes), .ok a⟩]) es.length
      = (result (c.map (valOf B.toBTypes)) a).head? := by
    simp [valueOf]
  cases c <;> first
    | (simp [result] at hv; done)
    | (obtain rfl := List.mem_singleton.1 hv
       simp only [Known, Agree, AgreeAt, values, tagRet]
       erw [key]
       rfl)

/-- Calls in postfix order can be replayed. -/
theorem replay_of_postfix {st st' : List (Val (Tagged B).toBTypes)} {ts : List (Event (Tagged B))}
    (hp : Postfix (B := Tagged B) st ts st') :
    ∀ {es es' : List (Event B)} {b b' : B.State} {calls : List (Call handles)}, Trace es b ts calls es' b' →
      (∀ v ∈ st, Known es v) → Replay es b calls es' b' ∧ ∀ v ∈ st', Known es' v := by
  induction hp with
  | done =>
    intro es es' b b' calls ht hk
    cases ht
    exact ⟨.done, hk⟩
  | @call st ts st' c x _ ih =>
    intro es es' b b' calls ht hk
    generalize hev : (⟨c, .ok x⟩ : Event (Tagged B)) = ev at ht
    cases ht with
    | call c' a h1 h2 =>
      obtain ⟨rfl, h⟩ := Event.mk.inj hev
      obtain rfl := BOut.ok.inj (eq_of_heq h)
      obtain ⟨h3, h4⟩ := ih h2 (by
        intro v hv
        rcases List.mem_append.1 hv with hv | hv
        · exact (hk v (List.mem_append_left _ hv)).append _
        · exact known_result c a v hv)
      refine ⟨.call _ _ a ?_ h1 h3, h4⟩
      exact agree_call fun v hv => hk v (List.mem_append_right _ hv)

/-- Dropping the numbers. -/
@[reducible] def Tagged.toB (B : Builder) : Hom (Logged (Tagged B)) B where
  toBMap := valOf B.toBTypes
  st s b := s.2.2 = b
  esc := False
  call := by
    rintro c ⟨es, n, b⟩ _ rfl
    simp only
    cases e : B.call (c.map (valOf B.toBTypes)) b with
    | mk o b' =>
      cases o with
      | ok a => exact ⟨(tagRet_val n c a).symm, rfl⟩
      | err => exact .inr ⟨b', rfl, rfl⟩
      | panic => exact .inr ⟨b', rfl, rfl⟩

/-- Keeping the numbers only. -/
@[reducible] def Tagged.toRecorder (B : Builder) (es0 : List (Event B)) (b0 : B.State) (calls0 : List (Call handles)) :
    Hom (Logged (Tagged B)) recorder where
  toBMap := tagOf B.toBTypes
  st s calls := ∃ es calls', calls = calls0 ++ calls' ∧ s.2.1 = calls.length ∧ es.length = calls.length ∧
    Trace es0 b0 s.1 calls' es s.2.2
  esc := True
  soft := True
  call := by
    rintro c ⟨ts, n, b⟩ _ ⟨es, calls', rfl, hn, hl, ht⟩
    simp only at hn ht ⊢
    subst hn
    cases e : B.call (c.map (valOf B.toBTypes)) b with
    | mk o b' =>
      cases o with
      | ok a =>
        refine ⟨?_, ?_⟩
        · exact (tagRet_tag _ c a).symm
        · refine ⟨es ++ [⟨c.map (valOf B.toBTypes), .ok a⟩], calls' ++ [c.map (tagOf B.toBTypes)], by simp,
            by simp; omega, by simp [hl]; omega, ?_⟩
          have := ht.snoc e
          rw [hl] at this
          exact this
      | err => exact .inl trivial
      | panic => exact .inl trivial

/-- **C60.** Parsing and building can be separated. Whenever a method succeeds, with any builder `B` (which may fail on
other inputs, or later), it succeeds with the recorder, at the same place; `B` has made the recorded calls, one after the
other, with every number replaced by what `B` returned for the call of that number, and the method returned what it
returns with the recorder, with every number replaced in the same way. The recording may go on from an earlier one
(`calls0`, which `B` has answered by `es0`). -/
theorem C60_success_is_replay (m : Method) (hm : m.InGrammar) (it it' : CIter) (b b' : B.State)
    (a : m.Ret B.toBTypes) (hr : m.run (⟨it, b⟩ : PSt CIter B) = (.ok a, ⟨it', b'⟩))
    (calls0 : List (Call handles)) (es0 : List (Event B)) (h0 : es0.length = calls0.length) :
    ∃ (new : List (Call handles)) (es : List (Event B)) (h : m.Ret handles),
      m.run (⟨it, calls0⟩ : PSt CIter recorder) = (.ok h, ⟨it', calls0 ++ new⟩) ∧ Replay es0 b new es b' ∧
      m.mapRet (values es) h = m.mapRet (present B.toBTypes) a := by
  have r1 := rel_method (StreamSim.refl CIter) (Tagged.toB B) m
  have r2 := rel_method (StreamSim.refl CIter) (Tagged.toRecorder B es0 b calls0) m
  unfold Rel at r1 r2
  have r1 := r1 ⟨it, ([], (calls0.length, b))⟩ ⟨it, b⟩ ⟨rfl, rfl⟩
  have r2 := r2 ⟨it, ([], (calls0.length, b))⟩ ⟨it, calls0⟩ ⟨rfl, es0, [], by simp, rfl, h0, .done⟩
  have hb := C58_bottom_up (B := Tagged B) m hm it (calls0.length, b) []
  rw [hr] at r1
  generalize m.run (⟨it, ([], (calls0.length, b))⟩ : PSt CIter (Logged (Tagged B))) = z at r1 r2 hb
  generalize m.run (⟨it, calls0⟩ : PSt CIter recorder) = z' at r2
  obtain ⟨z, s1⟩ := z
  obtain ⟨z', s1'⟩ := z'
  cases z with
  | panic n =>
    rcases r1 with ⟨h1, -⟩ | ⟨s2, h1, -⟩
    · exact h1.elim
    · cases h1
  | err e =>
    rcases r1 with ⟨h1, -⟩ | ⟨s2, h1, -⟩
    · exact h1.elim
    · cases h1
  | fuel =>
    rcases r1 with h1 | ⟨s2, h1, -⟩
    · exact h1.elim
    · cases h1
  | ok t =>
    cases z' <;> first | exact r2.elim | skip
    rename_i h
    obtain ⟨rfl, h2, h3⟩ := r1
    obtain ⟨rfl, h5, es, new, h6, -, h7, h8⟩ := r2
    obtain ⟨ts, h9, h10⟩ := hb t rfl
    obtain ⟨it1, ts1, n1, b1⟩ := s1
    obtain ⟨it1', calls⟩ := s1'
    simp only [List.nil_append] at h9
    simp only at h2 h3 h5 h6 h8
    subst h9 h3 h6
    obtain ⟨hR, hK⟩ := replay_of_postfix h10 h8 (by simp)
    refine ⟨new, es, _, ?_, hR, agree_ret hK⟩
    have h2 : it1 = it' := h2
    have h5 : it1 = it1' := h5
    rw [← h2, h5]

/-- **C60.** If a method fails with a builder `B`, then it fails with the recorder, with the same error and at the same
place, or the error is one that `B` returned. -/
theorem C60_failure_is_the_builders (m : Method) (it it' : CIter) (b b' : B.State) (e : ParseError B.Error)
    (hr : m.run (⟨it, b⟩ : PSt CIter B) = (.err e, ⟨it', b'⟩)) :
    (∃ x, e = .Custom x) ∨
      ∃ calls, m.run (⟨it, []⟩ : PSt CIter recorder) = (.err (e.map fun _ => ()), ⟨it', calls⟩) := by
  have r1 := rel_method (StreamSim.refl CIter) (Tagged.toB B) m
  have r2 := rel_method (StreamSim.refl CIter) (Tagged.toRecorder B [] b []) m
  unfold Rel at r1 r2
  have r1 := r1 ⟨it, ([], (0, b))⟩ ⟨it, b⟩ ⟨rfl, rfl⟩
  have r2 := r2 ⟨it, ([], (0, b))⟩ ⟨it, []⟩ ⟨rfl, [], [], by simp, rfl, rfl, .done⟩
  rw [hr] at r1
  generalize m.run (⟨it, ([], (0, b))⟩ : PSt CIter (Logged (Tagged B))) = z at r1 r2
  generalize m.run (⟨it, []⟩ : PSt CIter recorder) = z' at r2
  obtain ⟨z, s1⟩ := z
  obtain ⟨z', s1'⟩ := z'
  cases z with
  | panic n =>
    rcases r1 with ⟨h1, -⟩ | ⟨s2, h1, -⟩
    · exact h1.elim
    · cases h1
  | ok t => exact r1.elim
  | fuel =>
    rcases r1 with h1 | ⟨s2, h1, -⟩
    · exact h1.elim
    · cases h1
  | err e' =>
    rcases r1 with ⟨h1, -⟩ | ⟨s2, h1, h2, -⟩
    · exact h1.elim
    · have h1 := Prod.mk.inj h1
      obtain rfl : e = e' := (Res.err.inj h1.1).trans (ParseError.map_id e')
      obtain rfl := h1.2
      rcases r2 with ⟨-, h3⟩ | ⟨s3, h3, h4, -⟩
      · exact .inl h3
      · refine .inr ⟨s3.b, ?_⟩
        rw [h3]
        have h2 : s1.it = it' := h2
        have h4 : s1.it = s3.it := h4
        rw [← h2, h4]

/-- **C60.** If a method, run with the recorder, records the calls `calls` and returns `h`, then with every builder `B`
that never fails it makes these calls, one after the other, with every number replaced by what `B` returned for the
call of that number; it stops at the same place and returns `h` with every number replaced in the same way. -/
theorem C60_any_builder_replays (hB : NeverFails B) (m : Method) (hm : m.InGrammar) (it it' : CIter)
    (calls0 calls : List (Call handles)) (h : m.Ret handles)
    (hr : m.run (⟨it, calls0⟩ : PSt CIter recorder) = (.ok h, ⟨it', calls⟩))
    (es0 : List (Event B)) (h0 : es0.length = calls0.length) (b : B.State) :
    ∃ (new : List (Call handles)) (es : List (Event B)) (b' : B.State) (a : m.Ret B.toBTypes),
      calls = calls0 ++ new ∧ Replay es0 b new es b' ∧
      m.run (⟨it, b⟩ : PSt CIter B) = (.ok a, ⟨it', b'⟩) ∧
      m.mapRet (values es) h = m.mapRet (present B.toBTypes) a := by
  have hs := (C19_acceptance_independent_of_builder (C := recorder) hB (fun _ _ _ => ⟨_, _, rfl⟩) m it b calls0).1
  rw [hr] at hs
  generalize e : m.run (⟨it, b⟩ : PSt CIter B) = z at hs ⊢
  obtain ⟨z, it1, b1⟩ := z
  cases z with
  | ok a =>
    obtain ⟨new, es, h', h1, h2, h3⟩ := C60_success_is_replay m hm it it1 b b1 a e calls0 es0 h0
    rw [hr] at h1
    cases h1
    exact ⟨new, es, b1, a, rfl, h2, rfl, h3⟩
  | err => cases hs
  | panic => cases hs
  | fuel => cases hs

/-- **C60.** The replay is determined by the record: which calls `B` makes, their results, and its final state. -/
theorem C60_replay_deterministic {es es1 es2 : List (Event B)} {b b1 b2 : B.State} {calls : List (Call handles)}
    (h1 : Replay es b calls es1 b1) (h2 : Replay es b calls es2 b2) : es1 = es2 ∧ b1 = b2 := by
  induction h1 with
  | done => cases h2; exact ⟨rfl, rfl⟩
  | call r c a e1 e2 _ ih =>
    cases h2 with
    | call _ c' a' e1' e2' h2 =>
      obtain rfl := inj_call (present_inj _) (e1.symm.trans e1')
      rw [e2] at e2'
      cases e2'
      exact ih h2

/-- **C60.** The value a method returns is determined by the record, too. -/
theorem C60_result_deterministic {m : Method} {es : List (Event B)} {h : m.Ret handles} {a a' : m.Ret B.toBTypes}
    (h1 : m.mapRet (values es) h = m.mapRet (present B.toBTypes) a)
    (h2 : m.mapRet (values es) h = m.mapRet (present B.toBTypes) a') : a = a' :=
  inj_ret (present_inj _) (h1.symm.trans h2)

/-! ## The calls that were made -/

/-- The event of a recording builder as an event of the builder. -/
def unlog (ev : Event (Logged B)) : Event B := ⟨ev.call, ev.out⟩

theorem valueOf_unlog (es : List (Event (Logged B))) (n : Nat) :
    valueOf (B := Logged B) es n = valueOf (B := B) (es.map unlog) n := by
  unfold valueOf
  rw [List.getElem?_map]
  cases es[n]? with
  | none => rfl
  | some ev =>
    obtain ⟨c, o⟩ := ev
    cases o <;> rfl

theorem values_unlog (es : List (Event (Logged B))) :
    values (B := Logged B) es = values (B := B) (es.map unlog) := by
  unfold values
  simp only [valueOf_unlog]

theorem replay_logged {es es' : List (Event (Logged B))} {s s' : (Logged B).State} {calls : List (Call handles)}
    (h : Replay (B := Logged B) es s calls es' s') (hl : s.1 = es.map unlog) :
    s'.1 = es'.map unlog ∧ Replay (B := B) s.1 s.2 calls s'.1 s'.2 := by
  induction h with
  | done => exact ⟨hl, .done⟩
  | @call es s calls es' s' s1 r c a e1 e2 _ ih =>
    obtain ⟨log, b⟩ := s
    obtain ⟨log1, b1⟩ := s1
    have e2 : ((B.call c b).1, (log ++ [⟨c, (B.call c b).1⟩], (B.call c b).2))
      = (BOut.ok a, ((log1, b1) : List (Event B) × B.State)) := e2
    simp only [Prod.mk.injEq] at e2
    obtain ⟨e2, e3, e4⟩ := e2
    have hl : log = es.map unlog := hl
    have hl1 : log1 = (es ++ [(⟨c, .ok a⟩ : Event (Logged B))]).map unlog := by
      rw [← e3, e2, hl]
      simp [unlog]
    obtain ⟨h1, h2⟩ := ih hl1
    refine ⟨h1, .call r c a ?_ (b1 := b1) ?_ ?_⟩
    · simp only
      rw [hl, ← values_unlog]
      exact e1
    · exact Prod.ext e2 e4
    · have : log1 = log ++ [⟨c, .ok a⟩] := by rw [← e3, e2]
      rw [← this]
      exact h2

/-- **C60.** The calls of the replay are the calls `B` gets from the parser, with their results. -/
theorem C60_calls_made (hB : NeverFails B) (m : Method) (hm : m.InGrammar) (it it' : CIter)
    (calls : List (Call handles)) (h : m.Ret handles)
    (hr : m.run (⟨it, []⟩ : PSt CIter recorder) = (.ok h, ⟨it', calls⟩)) (b : B.State) :
    let s := (m.run (⟨it, ([], b)⟩ : PSt CIter (Logged B))).2.b
    Replay [] b calls s.1 s.2 := by
  obtain ⟨new, es, s', a, rfl, h1, h2, -⟩ :=
    C60_any_builder_replays (Logged.neverFails hB) m hm it it' [] calls h hr [] rfl ([], b)
  rw [h2]
  exact (replay_logged h1 rfl).2

/-- **C60.** A builder that never fails fails where the recorder fails: with the same error, at the same place. -/
theorem C60_fails_alike (hB : NeverFails B) (m : Method) (it : CIter) (b : B.State) :
    let r := m.run (⟨it, b⟩ : PSt CIter B)
    let r' := m.run (⟨it, []⟩ : PSt CIter recorder)
    shape m r.1 = shape m r'.1 ∧ r.2.it = r'.2.it :=
  C19_acceptance_independent_of_builder (C := recorder) hB (fun _ _ _ => ⟨_, _, rfl⟩) m it b []

/-! ## Whole scripts -/

/-- `AllCommands it b cs b'`: reading commands until there are no more gives `cs`, and leaves the builder in state
`b'`. -/
inductive Spec.AllCommands (B : Builder) : CIter → B.State → List B.Command → B.State → Prop
  | done {it it' b b'} : Method.completeCommand.run (⟨it, b⟩ : PSt CIter B) = (.ok none, ⟨it', b'⟩) →
      AllCommands B it b [] b'
  | next {it it' b b1 b' c cs} :
      Method.completeCommand.run (⟨it, b⟩ : PSt CIter B) = (.ok (some c), ⟨it', b1⟩) →
      AllCommands B it' b1 cs b' → AllCommands B it b (c :: cs) b'

theorem Spec.Replay.trans {es es1 es2 : List (Event B)} {b b1 b2 : B.State} {calls calls' : List (Call handles)}
    (h : Replay es b calls es1 b1) (h' : Replay es1 b1 calls' es2 b2) : Replay es b (calls ++ calls') es2 b2 := by
  induction h with
  | done => exact h'
  | call r c a e1 e2 _ ih => exact .call r c a e1 e2 (ih h')

theorem Spec.Replay.length {es es1 : List (Event B)} {b b1 : B.State} {calls : List (Call handles)}
    (h : Replay es b calls es1 b1) : es1.length = es.length + calls.length ∧ es <+: es1 := by
  induction h with
  | done => exact ⟨rfl, List.prefix_rfl⟩
  | call r c a e1 e2 _ ih =>
    refine ⟨by rw [ih.1]; simp; omega, (List.prefix_append _ _).trans ih.2⟩

theorem values_command {es es' : List (Event B)} {n : Nat} {c : B.Command} (h : (values es).command n = some c)
    (hp : es <+: es') : (values es').command n = some c := by
  obtain ⟨x, rfl⟩ := hp
  exact Known.append (B := B) x (v := .command (n, c)) h

/-- **C60.** The same for all commands of a script: one record of calls, the same for every builder that never
fails. -/
theorem C60_script (hB : NeverFails B) (it : CIter) (calls0 calls : recorder.State) (hs : List recorder.Command)
    (hr : AllCommands recorder it calls0 hs calls) (es0 : List (Event B)) (h0 : es0.length = calls0.length)
    (b : B.State) :
    ∃ (new : List (Call handles)) (es : List (Event B)) (b' : B.State) (cs : List B.Command),
      calls = calls0 ++ new ∧ Replay es0 b new es b' ∧ AllCommands B it b cs b' ∧
      hs.map (values es).command = cs.map some := by
  induction hr generalizing es0 b with
  | done h =>
    obtain ⟨new, es, b', a, h1, h2, h3, h4⟩ :=
      C60_any_builder_replays hB .completeCommand trivial _ _ _ _ _ h es0 h0 b
    cases a with
    | some => simp [Method.mapRet] at h4
    | none => exact ⟨new, es, b', [], h1, h2, .done h3, rfl⟩
  | next h _ ih =>
    obtain ⟨new, es, b1, a, h1, h2, h3, h4⟩ :=
      C60_any_builder_replays hB .completeCommand trivial _ _ _ _ _ h es0 h0 b
    cases a with
    | none => simp [Method.mapRet] at h4
    | some c =>
      obtain ⟨new', es', b', cs, h5, h6, h7, h8⟩ := ih es (by rw [h1, h2.length.1, h0, List.length_append]) b1
      refine ⟨new ++ new', es', b', c :: cs, by rw [h5, h1, List.append_assoc], h2.trans h6, .next h3 h7, ?_⟩
      have h4 : (values es).command _ = some c := Option.some.inj h4
      rw [List.map_cons, List.map_cons, h8, values_command h4 h6.length.2]

/-- **C60.** The same for all commands of a script that is read to its end with any builder, which may fail on other
scripts: they are a replay of the record. -/
theorem C60_script_success (it : CIter) (b b' : B.State) (cs : List B.Command) (hr : AllCommands B it b cs b')
    (calls0 : List (Call handles)) (es0 : List (Event B)) (h0 : es0.length = calls0.length) :
    ∃ (new : List (Call handles)) (es : List (Event B)) (hs : List recorder.Command),
      AllCommands recorder it calls0 hs (calls0 ++ new) ∧ Replay es0 b new es b' ∧
      hs.map (values es).command = cs.map some := by
  induction hr generalizing es0 calls0 with
  | done h =>
    obtain ⟨new, es, a, h1, h2, h3⟩ := C60_success_is_replay .completeCommand trivial _ _ _ _ _ h calls0 es0 h0
    cases a with
    | some => simp [Method.mapRet] at h3
    | none => exact ⟨new, es, [], .done h1, h2, rfl⟩
  | next h _ ih =>
    obtain ⟨new, es, a, h1, h2, h3⟩ := C60_success_is_replay .completeCommand trivial _ _ _ _ _ h calls0 es0 h0
    cases a with
    | none => simp [Method.mapRet] at h3
    | some n =>
      obtain ⟨new', es', hs, h5, h6, h7⟩ := ih (calls0 ++ new) es (by rw [h2.length.1, h0, List.length_append])
      refine ⟨new ++ new', es', n :: hs, by rw [← List.append_assoc]; exact .next h1 h5, h2.trans h6, ?_⟩
      have h3 : (values es).command n = some _ := Option.some.inj h3
      rw [List.map_cons, List.map_cons, h7, values_command h3 h6.length.2]

end

/-! ## A case -/

/-- The recorded calls of all commands of a text, each as the numbers in its arguments, and the numbers of the
commands. -/
def recordOf : Nat → PSt CIter recorder → Option (List (List Nat) × List Nat)
  | 0, _ => none
  | n + 1, s => match Method.completeCommand.run s with
    | (.ok none, s') => some (s'.b.map (fun c => (args c).map fun v => match v with
      | .command n | .commandList n | .listable n | .pipeable n | .compound n | .word n | .redirect n => n), [])
    | (.ok (some c), s') => (recordOf n s').map fun x => (x.1, c :: x.2)
    | _ => none

theorem recordOf_sound {n : Nat} {s : PSt CIter recorder} {x} (h : recordOf n s = some x) :
    ∃ calls, AllCommands recorder s.it s.b x.2 calls ∧ x.1.length = calls.length := by
  induction n generalizing s x with
  | zero => cases h
  | succ n ih =>
    obtain ⟨it, b⟩ := s
    unfold recordOf at h
    split at h
    · rename_i s' e
      cases h
      exact ⟨s'.b, .done e, by simp⟩
    · rename_i c s' e
      obtain ⟨y, h1, rfl⟩ := Option.map_eq_some_iff.1 h
      obtain ⟨calls, h2, h3⟩ := ih h1
      exact ⟨calls, .next e h2, h3⟩
    · cases h

/-- The record of the two commands `a | b $(c)` and `x=1`: `$(c)` (call 8) gets the command of call 7; the commands
are those of calls 12 and 17. -/
theorem C60_case : recordOf 5 (PSt.new (I := CIter) (B := recorder) (lex ascii "a | b $(c); x=1".toList) []) =
    some ([[], [0], [], [], [3], [4], [5], [6], [7], [2, 8], [1, 9], [10], [11], [], [13], [14], [15], [16]],
      [12, 17]) := by
  decide +kernel

/-- So with the default builder this script has two commands: what it returned for calls 12 and 17 of the record. -/
example : ∃ (calls : List (Call handles)) (es : List (Event DefaultBuilder)) (b' : DefaultBuilder.State)
    (c c' : DefaultBuilder.Command), calls.length = 18 ∧ Replay [] () calls es b' ∧
    AllCommands DefaultBuilder (PSt.new (I := CIter) (B := recorder) (lex ascii "a | b $(c); x=1".toList) []).it ()
      [c, c'] b' ∧ (values es).command 12 = some c ∧ (values es).command 17 = some c' := by
  obtain ⟨calls, h1, h2⟩ := recordOf_sound C60_case
  obtain ⟨new, es, b', cs, rfl, h3, h4, h5⟩ := C60_script (B := DefaultBuilder) (Core.neverFails _) _ _ _ _ h1 [] rfl ()
  match cs, h4, h5 with
  | [c, c'], h4, h5 =>
    simp only [List.map_cons, List.map_nil, List.cons.injEq, and_true] at h5
    exact ⟨_, es, b', c, c', h2.symm, h3, h4, h5.1, h5.2⟩
  | [], _, h5 => simp at h5
  | [_], _, h5 => simp at h5
  | _ :: _ :: _ :: _, _, h5 => simp at h5

/-- The builder `NoRedirects` can fail, but not on a script without redirections: on `a | b` it is a replay. -/
example : ∃ new es h it' b' a, Method.completeCommand.run (⟨(parserOf "a | b").it, ()⟩ : PSt CIter NoRedirects) = (.ok a, ⟨it', b'⟩) ∧
    Method.completeCommand.run (⟨((⟨(parserOf "a | b").it, ()⟩ : PSt CIter NoRedirects)).it, []⟩ : PSt CIter recorder) = (.ok h, ⟨it', [] ++ new⟩) ∧
    Replay (B := NoRedirects) [] () new es b' := by
  have key : (match (Method.completeCommand.run ((⟨(parserOf "a | b").it, ()⟩ : PSt CIter NoRedirects))).1 with | .ok _ => true | _ => false) = true := by
    decide +kernel
  generalize e : Method.completeCommand.run ((⟨(parserOf "a | b").it, ()⟩ : PSt CIter NoRedirects)) = z at key
  obtain ⟨z, it', b'⟩ := z
  cases z with
  | ok a =>
    obtain ⟨new, es, h, h1, h2, -⟩ := C60_success_is_replay (B := NoRedirects) .completeCommand trivial _ _ _ _ _ e [] [] rfl
    exact ⟨new, es, h, it', b', a, rfl, h1, h2⟩
  | err => cases key
  | panic => cases key
  | fuel => cases key

end Conch
