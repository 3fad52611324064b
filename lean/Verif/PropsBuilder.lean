import Verif.PropsParse
/-!
# Properties C19, C20, C21, C36: what the parser and the builder see of each other
-/
namespace Conch
open Spec

/-! ## A builder that records its calls -/

/-- One builder call with its outcome. -/
structure Event (B : Builder) where
  call : Call B.toBTypes
  out : BOut B.Error call.Ret

/-- The error a call returned. -/
def Event.error {B : Builder} (ev : Event B) : Option B.Error :=
  match ev.out with
  | .err e => some e
  | _ => none

/-- The call returned `Ok`. -/
def Event.isOk {B : Builder} (ev : Event B) : Prop := ∃ a, ev.out = .ok a

/-- The call panicked. -/
def Event.panicked {B : Builder} (ev : Event B) : Prop := ev.out = .panic

/-- The builder `B`, with a record of all calls and their outcomes. -/
@[reducible] def Logged (B : Builder) : Builder where
  toBTypes := B.toBTypes
  State := List (Event B) × B.State
  call c s := ((B.call c s.2).1, (s.1 ++ [⟨c, (B.call c s.2).1⟩], (B.call c s.2).2))

theorem BOut.rel_refl {ε α σ τ : Type} {st : σ → τ → Prop} (f : α → α) (hf : ∀ x, f x = x)
    (g : ε → ε) (hg : ∀ x, g x = x) {p : BOut ε α × σ} {q : BOut ε α × τ} (h1 : q.1 = p.1)
    (h2 : st p.2 q.2) (esc : Prop) : BOut.Rel esc False g f st p q := by
  obtain ⟨o, s⟩ := p
  obtain ⟨o', s'⟩ := q
  cases h1
  cases o with
  | ok a => exact ⟨(hf a).symm, h2⟩
  | err e => exact .inr ⟨s', by rw [hg], h2⟩
  | panic => exact .inr ⟨s', rfl, h2⟩

/-- A homomorphism that does not change any value, only states. -/
@[reducible] def Hom.ofState (S : Type) (B : Builder)
    (call : (c : Call B.toBTypes) → S → BOut B.Error c.Ret × S) (st : S → B.State → Prop) (esc : Prop)
    (h : ∀ c s b, st s b → (esc ∧ (call c s).1 = .panic) ∨
      ((B.call c b).1 = (call c s).1 ∧ st (call c s).2 (B.call c b).2)) :
    Hom { toBTypes := B.toBTypes, State := S, call := call } B where
  toBMap := BMap.id B.toBTypes
  st := st
  esc := esc
  call := by
    intro c s b hs
    have key : ∀ (c' : Call B.toBTypes) (hc : c' = c) (f : c.Ret → c'.Ret) (_ : ∀ x, HEq (f x) x),
        BOut.Rel esc False _root_.id f st (call c s) (B.call c' b) := by
      intro c' hc f hf
      subst hc
      rcases h c' s b hs with ⟨h1, h2⟩ | ⟨h1, h2⟩
      · generalize call c' s = z at h2
        obtain ⟨z, s'⟩ := z
        cases h2
        exact Or.inl h1
      · exact BOut.rel_refl f (fun x => eq_of_heq (hf x)) _root_.id (fun _ => rfl) h1 h2 esc
    exact key _ (Call.map_id c) _ (Call.mapRet_id c)

/-- Recording does not change the builder. -/
@[reducible] def Logged.hom (B : Builder) : Hom (Logged B) B :=
  Hom.ofState (List (Event B) × B.State) B (Logged B).call (fun s b => s.2 = b) False (by
    rintro c s _ rfl
    exact .inr ⟨rfl, rfl⟩)

/-- Runs with related builders on the same stream. -/
theorem method_hom {S : Type} {B : Builder}
    {call : (c : Call B.toBTypes) → S → BOut B.Error c.Ret × S} {st : S → B.State → Prop}
    {esc : Prop}
    (h : ∀ c s b, st s b → (esc ∧ (call c s).1 = .panic) ∨
      ((B.call c b).1 = (call c s).1 ∧ st (call c s).2 (B.call c b).2)) (m : Method) (it : CIter) {b : S} {b' : B.State} (hst : st b b')
    (hne : esc → (m.run (⟨it, b⟩ : PSt CIter
      { toBTypes := B.toBTypes, State := S, call := call })).1 ≠ .panic 0) :
    let r := m.run (⟨it, b⟩ : PSt CIter { toBTypes := B.toBTypes, State := S, call := call })
    let r' := m.run (⟨it, b'⟩ : PSt CIter B)
    r'.1 = r.1 ∧ r'.2.it = r.2.it ∧ st r.2.b r'.2.b := by
  have hr := rel_method (StreamSim.refl CIter) (Hom.ofState S B call st esc h) m
  unfold Rel at hr
  have hr := hr ⟨it, b⟩ ⟨it, b'⟩ ⟨rfl, hst⟩
  intro r r'
  change Out _ _ _ r r' at hr
  change esc → r.1 ≠ .panic 0 at hne
  generalize r = z at hr hne
  generalize r' = z' at hr
  obtain ⟨z, s1⟩ := z
  obtain ⟨z', s1'⟩ := z'
  cases z with
  | panic n =>
    rcases hr with ⟨h1, rfl⟩ | ⟨s2, h1, h2⟩
    · exact absurd rfl (hne h1)
    · cases h1; exact ⟨rfl, h2.1.symm, h2.2⟩
  | ok a =>
    cases z' <;> first | exact hr.elim | skip
    obtain ⟨h1, h2⟩ := hr
    exact ⟨by simp [h1, Method.mapRet_id], h2.1.symm, h2.2⟩
  | err e =>
    rcases hr with ⟨h1, -⟩ | ⟨s2, h1, h2⟩
    · exact h1.elim
    · cases h1; exact ⟨by simp [ParseError.map_id], h2.1.symm, h2.2⟩
  | fuel =>
    rcases hr with h1 | ⟨s2, h1, h2⟩
    · exact h1.elim
    · cases h1; exact ⟨rfl, h2.1.symm, h2.2⟩

/-- C20: what is shown below with recorded calls is about every builder: recording the calls of `B`
changes neither the results of the parser nor its stream nor what `B` does. -/
theorem C20_recording_is_transparent {B : Builder} (m : Method) (it : CIter) (b : B.State)
    (log : List (Event B)) :
    let r := m.run (⟨it, (log, b)⟩ : PSt CIter (Logged B))
    let r' := m.run (⟨it, b⟩ : PSt CIter B)
    r'.1 = r.1 ∧ r'.2.it = r.2.it ∧ r'.2.b = r.2.b.2 := by
  intro r r'
  obtain ⟨h1, h2, h3⟩ := method_hom (B := B) (call := (Logged B).call) (esc := False)
    (h := by rintro c s _ rfl; exact .inr ⟨rfl, rfl⟩) (st := fun s b => s.2 = b) m it
    (b := (log, b)) (b' := b) rfl False.elim
  exact ⟨h1, h2, h3.symm⟩

/-- The calls made since the log was `l0`: all successful, all well-formed; `fn`: the word `function` is in the
input. -/
def LogOk {B : Builder} (fn : Prop) (l0 : List (Event B)) (s : List (Event B) × B.State) : Prop :=
  ∃ es, s.1 = l0 ++ es ∧ ∀ ev ∈ es, ev.isOk ∧ CallOk ev.call ∧ (fn ∨ SubshellOk ev.call)

/-- …and one more call, with the outcome `P`. -/
def LogLast {B : Builder} (fn : Prop) (l0 : List (Event B)) (P : Event B → Prop)
    (s : List (Event B) × B.State) : Prop :=
  ∃ es ev, s.1 = l0 ++ es ++ [ev] ∧ (∀ ev ∈ es, ev.isOk ∧ CallOk ev.call ∧ (fn ∨ SubshellOk ev.call)) ∧
    (CallOk ev.call ∧ (fn ∨ SubshellOk ev.call)) ∧ P ev

/-- The theory of the record. -/
@[reducible] def Theory.logged (B : Builder) (it0 : AIter) (l0 : List (Event B)) : Theory (Logged B) where
  J := Part it0
  K := LogOk (∃ t ∈ it0.toks, FunctionWord t) l0
  KE e := LogLast (∃ t ∈ it0.toks, FunctionWord t) l0 fun ev => ev.error = some e
  KP := LogLast (∃ t ∈ it0.toks, FunctionWord t) l0 Event.panicked
  HS := True
  LB := True
  FN := ∃ t ∈ it0.toks, FunctionWord t
  next := (Theory.parts B it0 True).next
  sub := (Theory.parts B it0 True).sub
  seen _ _ := trivial
  here := (Theory.parts B it0 True).here
  fn := (Theory.parts B it0 True).fn
  call := by
    rintro c ⟨l, b⟩ ⟨es, hl, hes⟩ hc hs
    simp only at hl
    subst hl
    split
    · rename_i a b' h
      simp only [Logged, Prod.mk.injEq] at h
      obtain ⟨h1, rfl⟩ := h
      refine ⟨es ++ [⟨c, (B.call c b).1⟩], by simp, ?_⟩
      intro ev hev
      rcases List.mem_append.1 hev with hev | hev
      · exact hes ev hev
      · obtain rfl : ev = _ := by simpa using hev
        exact ⟨⟨a, h1⟩, hc, hs⟩
    · rename_i e b' h
      simp only [Logged, Prod.mk.injEq] at h
      obtain ⟨h1, rfl⟩ := h
      exact ⟨es, ⟨c, (B.call c b).1⟩, by simp, hes, ⟨hc, hs⟩, by simp only [Event.error]; rw [h1]⟩
    · rename_i b' h
      simp only [Logged, Prod.mk.injEq] at h
      obtain ⟨h1, rfl⟩ := h
      exact ⟨es, ⟨c, (B.call c b).1⟩, by simp, hes, ⟨hc, hs⟩, h1⟩

/-- What the record looks like after each outcome. -/
theorem logged_run {B : Builder} (m : Method) (s : PSt CIter (Logged B)) :
    match (m.run s).1 with
    | .ok _ => LogOk (∃ t ∈ s.abs.it.toks, FunctionWord t) s.b.1 (m.run s).2.b
    | .err (.Custom e) => LogLast (∃ t ∈ s.abs.it.toks, FunctionWord t) s.b.1 (fun ev => ev.error = some e) (m.run s).2.b
    | .err _ => LogOk (∃ t ∈ s.abs.it.toks, FunctionWord t) s.b.1 (m.run s).2.b
    | .panic n => (n = 0 ∧ LogLast (∃ t ∈ s.abs.it.toks, FunctionWord t) s.b.1 Event.panicked (m.run s).2.b) ∨
        (n = 1326 ∧ LogOk (∃ t ∈ s.abs.it.toks, FunctionWord t) s.b.1 (m.run s).2.b)
    | .fuel => False := by
  have ht := tr_method (T := Theory.logged B s.abs.it s.b.1) m (s := s.abs) ⟨.all, [], by simp [PSt.abs]⟩
  unfold Theory.Tr at ht
  rw [Method.run_abs] at ht
  generalize m.run s = z at ht
  obtain ⟨z, s1⟩ := z
  cases z with
  | ok a => exact ht.1.k
  | err e => cases e <;> first | exact ht.1.1 | exact ht.1
  | panic n =>
    rcases ht with ⟨h1, h2⟩ | ⟨h1, -, -, h2⟩
    · exact .inl ⟨h1, h2⟩
    · exact .inr ⟨h1, h2⟩
  | fuel => exact ht

theorem logOk_calls {B : Builder} {fn : Prop} {l0 : List (Event B)} {s} (h : LogOk fn l0 s) :
    ∃ es, s.1 = l0 ++ es ∧ ∀ ev ∈ es, CallOk ev.call ∧ (fn ∨ SubshellOk ev.call) := by
  obtain ⟨es, h1, h2⟩ := h
  exact ⟨es, h1, fun ev h => (h2 ev h).2⟩

theorem logLast_calls {B : Builder} {fn : Prop} {l0 : List (Event B)} {P} {s} (h : LogLast fn l0 P s) :
    ∃ es, s.1 = l0 ++ es ∧ ∀ ev ∈ es, CallOk ev.call ∧ (fn ∨ SubshellOk ev.call) := by
  obtain ⟨es, ev, h1, h2, h3, -⟩ := h
  refine ⟨es ++ [ev], by simp [h1], ?_⟩
  intro ev' h
  rcases List.mem_append.1 h with h | h
  · exact (h2 ev' h).2
  · obtain rfl : ev' = _ := by simpa using h
    exact h3

theorem no_error_of_ok {B : Builder} {ev : Event B} (h : ev.isOk) : ev.error = none := by
  obtain ⟨a, h⟩ := h
  unfold Event.error; rw [h]

/-- C20: if a builder method returns `Err(e)`, then it was the last builder call the parsing method
made, and the parsing method returns `Err(ParseError::Custom(e))`. (`es`: the calls the parsing
method makes, in order, with their outcomes.) -/
theorem C20_builder_error_stops_parse {B : Builder} (m : Method) (s : PSt CIter (Logged B)) :
    ∃ es, (m.run s).2.b.1 = s.b.1 ++ es ∧
      ∀ before ev after e, es = before ++ ev :: after → ev.error = some e →
        after = [] ∧ (m.run s).1 = .err (.Custom e) := by
  have key := logged_run m s
  have ok : ∀ {fn l}, LogOk fn s.b.1 l → ∃ es, l.1 = s.b.1 ++ es ∧
      ∀ before ev after e, es = before ++ ev :: after → ev.error = some e → False := by
    rintro fn l ⟨es, h1, h2⟩
    refine ⟨es, h1, ?_⟩
    rintro before ev after e rfl h
    rw [no_error_of_ok (h2 ev (by simp)).1] at h
    cases h
  have ok' : LogOk (∃ t ∈ s.abs.it.toks, FunctionWord t) s.b.1 (m.run s).2.b → ∃ es,
      (m.run s).2.b.1 = s.b.1 ++ es ∧ ∀ before ev after e, es = before ++ ev :: after →
        ev.error = some e → after = [] ∧ (m.run s).1 = .err (.Custom e) := fun h => by
    obtain ⟨es, h1, h2⟩ := ok h
    exact ⟨es, h1, fun b v a e h h' => (h2 b v a e h h').elim⟩
  have last : ∀ {fn P l} (_ : LogLast fn s.b.1 P l), ∃ es ev, l.1 = s.b.1 ++ (es ++ [ev]) ∧ P ev ∧
      ∀ before v after e, es ++ [ev] = before ++ v :: after → v.error = some e →
        after = [] ∧ ev.error = some e := by
    rintro fn P l ⟨es, ev, h1, h2, h3, h4⟩
    refine ⟨es, ev, by simp [h1], h4, ?_⟩
    rintro before v after e h h'
    rcases List.eq_nil_or_concat after with rfl | ⟨as, x, rfl⟩
    · obtain ⟨-, h⟩ := List.append_inj' h rfl
      cases h
      exact ⟨rfl, h'⟩
    · rw [List.concat_eq_append, ← List.cons_append, ← List.append_assoc] at h
      obtain ⟨rfl, -⟩ := List.append_inj' h rfl
      rw [no_error_of_ok (h2 v (by simp)).1] at h'
      cases h'
  generalize hr : (m.run s).1 = r at key
  cases r with
  | ok a => rw [← hr]; exact ok' key
  | err e =>
    cases e with
    | Custom e =>
      obtain ⟨es, ev, h1, h2, h3⟩ := last key
      refine ⟨es ++ [ev], h1, ?_⟩
      intro before v after e' h h'
      obtain ⟨h4, h5⟩ := h3 before v after e' h h'
      rw [h2] at h5
      cases h5
      exact ⟨h4, rfl⟩
    | _ => rw [← hr]; exact ok' key
  | panic n =>
    rcases key with ⟨-, key⟩ | ⟨-, key⟩
    · obtain ⟨es, ev, h1, h2, h3⟩ := last key
      refine ⟨es ++ [ev], h1, ?_⟩
      intro before v after e' h h'
      obtain ⟨h4, h5⟩ := h3 before v after e' h h'
      have : ev.error = none := by
        unfold Event.error Event.panicked at *; rw [h2]
      rw [this] at h5
      cases h5
    · rw [← hr]; exact ok' key
  | fuel => exact key.elim

/-- C20: conversely a `Custom` error comes from the last builder call, unchanged. -/
theorem C20_custom_error_is_the_builders {B : Builder} (m : Method) (s : PSt CIter (Logged B))
    (e : B.Error) (h : (m.run s).1 = .err (.Custom e)) :
    ∃ es ev, (m.run s).2.b.1 = s.b.1 ++ es ++ [ev] ∧ ev.error = some e := by
  have key := logged_run m s
  rw [h] at key
  obtain ⟨es, ev, h1, -, -, h4⟩ := key
  exact ⟨es, ev, h1, h4⟩

theorem calls_ok {B : Builder} (m : Method) (s : PSt CIter (Logged B)) :
    ∃ es, (m.run s).2.b.1 = s.b.1 ++ es ∧ ∀ ev ∈ es, CallOk ev.call ∧
      ((∃ t ∈ s.abs.it.toks, FunctionWord t) ∨ SubshellOk ev.call) := by
  have key := logged_run m s
  generalize (m.run s).1 = r at key
  cases r with
  | ok a => exact logOk_calls key
  | err e => cases e <;> first | exact logOk_calls key | exact logLast_calls key
  | panic n =>
    rcases key with ⟨-, key⟩ | ⟨-, key⟩
    · exact logLast_calls key
    · exact logOk_calls key
  | fuel => exact key.elim

/-- C21: every builder call gets what the documentation promises, except that a subshell may be
empty in one case (`Spec.CallOk`; see `C21_empty_subshell`). -/
theorem C21_well_formed_calls_partial {B : Builder} (m : Method) (s : PSt CIter (Logged B)) :
    ∃ es, (m.run s).2.b.1 = s.b.1 ++ es ∧ ∀ ev ∈ es, CallOk ev.call := by
  obtain ⟨es, h1, h2⟩ := calls_ok m s
  exact ⟨es, h1, fun ev h => (h2 ev h).1⟩

/-- C21: if the unquoted word `function` is not in the input (neither in backticks nor in here-documents), then
every builder call gets what the documentation promises, also every subshell a command. -/
theorem C21_well_formed_calls_without_function_partial {B : Builder} (m : Method) (s : PSt CIter (Logged B))
    (hf : ∀ x ∈ s.rest, ¬ FunctionWord x.2) :
    ∃ es, (m.run s).2.b.1 = s.b.1 ++ es ∧ ∀ ev ∈ es, CallOk ev.call ∧ ∀ g io, ev.call = .subshell g io → g.commands ≠ [] := by
  obtain ⟨es, h1, h2⟩ := calls_ok m s
  refine ⟨es, h1, fun ev h => ⟨(h2 ev h).1, fun g io e => ?_⟩⟩
  rcases (h2 ev h).2 with ⟨t, ht, ht'⟩ | h3
  · obtain ⟨x, hx, rfl⟩ := List.mem_map.1 ht
    exact absurd ht' (hf x hx)
  · rw [e] at h3
    exact h3

/-- C21, the case that is missing: for `function f (⏎)` the builder is asked for a subshell without
commands. -/
theorem C21_empty_subshell : ∃ g io out, ⟨.subshell g io, out⟩ ∈
    (Method.completeCommand.run (⟨(parserOf "function f (\n)").it, ([], ())⟩ :
      PSt CIter (Logged EmptyBuilder))).2.b.1 ∧ g.commands = [] := by
  have h : (Method.completeCommand.run (⟨(parserOf "function f (\n)").it, ([], ())⟩ :
      PSt CIter (Logged EmptyBuilder))).2.b.1.any (fun ev => match ev.call with
        | .subshell g _ => g.commands.isEmpty
        | _ => false) = true := by decide +kernel
  obtain ⟨⟨c, out⟩, h1, h2⟩ := List.any_eq_true.1 h
  cases c <;> simp at h2
  exact ⟨_, _, _, h1, h2⟩

/-! ## C36 -/

/-- The groups in the result of a method are not empty. -/
def Spec.GroupsOk {T : BTypes} : (m : Method) → m.Ret T → Prop
  | .doGroup, g => NonEmpty g
  | .braceGroup, g => NonEmpty g
  | .subshell, g => NonEmpty g
  | .commandGroup _, g => NonEmpty g
  | .loopCommand, p => NonEmpty p.2.guard ∧ NonEmpty p.2.body
  | .ifCommand, f => f.conditionals ≠ [] ∧
      (∀ p ∈ f.conditionals, NonEmpty p.guard ∧ NonEmpty p.body) ∧
      ∀ g, f.elseBranch = some g → NonEmpty g
  | .forCommand, f => NonEmpty f.body
  | _, _ => True

theorem tr_groupsOk {B : Builder} {T : Theory B} (m : Method) {s : PSt AIter B} (hi : T.Inv s)
    (hlb : T.LB) :
    T.Tr m.run s (fun a _ => GroupsOk m a) := by
  have l : s.len ≤ s.len + 1 := by omega
  cases m with
  | doGroup => exact tr_run hi fun R h => (tr_doGroup h hi l).mono fun _ _ _ h => h.1
  | braceGroup => exact tr_run hi fun R h => (tr_braceGroup h hi l (.inl hlb)).mono fun _ _ _ h => h.1
  | subshell =>
    exact tr_run hi fun R h => (tr_subshellInternal h hi l _).mono fun _ _ _ h => h.2 rfl
  | commandGroup cfg => exact tr_run hi fun R h => tr_commandGroup h hi (by omega) cfg
  | loopCommand =>
    exact tr_run hi fun R h => (tr_loopCommand h hi l).mono fun _ _ _ h => ⟨h.1, h.2.1⟩
  | ifCommand => exact tr_run hi fun R h => (tr_ifCommand h hi l).mono fun _ _ _ h => h.1
  | forCommand => exact tr_run hi fun R h => (tr_forCommand h hi l).mono fun _ _ _ h => h.1
  | _ => exact tr_method _ hi fun _ => .inl hlb

/-- C36: `do_group`, `brace_group`, `subshell`, `command_group`, `loop_command`, `if_command` and
`for_command` never return an empty group; an empty one makes them fail. -/
theorem C36_no_empty_groups {B : Builder} (m : Method) (s s' : PSt CIter B) (a : m.Ret B.toBTypes)
    (h : m.run s = (.ok a, s')) : GroupsOk m a := by
  have ht := tr_groupsOk (T := Theory.parts B s.abs.it True) m (s := s.abs) (basic_inv s.abs)
    trivial
  unfold Theory.Tr at ht
  rw [Method.run_abs, h] at ht
  exact ht.2

/-- C36: wherever a compound command occurs in the input, the builder is not asked for one with an
empty group, except for a subshell in the case of `C21_empty_subshell`. -/
theorem C36_no_empty_groups_inside_partial {B : Builder} (m : Method)
    (s : PSt CIter (Logged B)) : ∃ es, (m.run s).2.b.1 = s.b.1 ++ es ∧
      ∀ ev ∈ es, match ev.call with
        | .braceGroup g _ => NonEmpty g
        | .subshell g io => NonEmpty g ∨ (io = [] ∧ g.trailingComments ≠ [])
        | .loopCommand _ p _ => NonEmpty p.guard ∧ NonEmpty p.body
        | .ifCommand f _ => (∀ p ∈ f.conditionals, NonEmpty p.guard ∧ NonEmpty p.body) ∧
            ∀ g, f.elseBranch = some g → NonEmpty g
        | .forCommand f _ => NonEmpty f.body
        | _ => True := by
  obtain ⟨es, h1, h2⟩ := C21_well_formed_calls_partial m s
  refine ⟨es, h1, fun ev hev => ?_⟩
  have := h2 ev hev
  split <;> rename_i h <;> (try rw [h] at this) <;> first | exact this | exact this.2 | trivial

/-- C36: if the unquoted word `function` is not in the input, no compound command with an empty group is built,
wherever it occurs. -/
theorem C36_no_empty_groups_without_function_partial {B : Builder} (m : Method)
    (s : PSt CIter (Logged B)) (hf : ∀ x ∈ s.rest, ¬ FunctionWord x.2) : ∃ es, (m.run s).2.b.1 = s.b.1 ++ es ∧
      ∀ ev ∈ es, match ev.call with
        | .braceGroup g _ => NonEmpty g
        | .subshell g _ => NonEmpty g
        | .loopCommand _ p _ => NonEmpty p.guard ∧ NonEmpty p.body
        | .ifCommand f _ => (∀ p ∈ f.conditionals, NonEmpty p.guard ∧ NonEmpty p.body) ∧
            ∀ g, f.elseBranch = some g → NonEmpty g
        | .forCommand f _ => NonEmpty f.body
        | _ => True := by
  obtain ⟨es, h1, h2⟩ := C21_well_formed_calls_without_function_partial m s hf
  refine ⟨es, h1, fun ev hev => ?_⟩
  obtain ⟨h3, h4⟩ := h2 ev hev
  split <;> rename_i h <;> (try rw [h] at h3) <;> first | exact h3 | exact h4 _ _ h | exact h3.2 | trivial

/-- A parser without the word `function` that builds a subshell in a function. -/
example : (∀ x ∈ (⟨(parserOf "f() ( a; b )").it, ([], ())⟩ : PSt CIter (Logged EmptyBuilder)).rest, ¬ FunctionWord x.2) ∧
    ((Method.completeCommand.run (⟨(parserOf "f() ( a; b )").it, ([], ())⟩ :
      PSt CIter (Logged EmptyBuilder))).2.b.1.any fun ev => match ev.call with
        | .subshell g _ => g.commands.length = 2
        | _ => false) = true := by
  constructor
  · have : ((⟨(parserOf "f() ( a; b )").it, ([], ())⟩ : PSt CIter (Logged EmptyBuilder)).rest.all fun x =>
      x.2 ≠ .Name "function".toList ∧ x.2 ≠ .Literal "function".toList) = true := by decide +kernel
    intro x hx h
    have := List.all_eq_true.1 this x hx
    simp only [ne_eq, decide_eq_true_eq] at this
    exact h.elim this.1 this.2
  · decide +kernel

/-! ## C19 -/

/-- The builder accepts every well-formed call: it neither returns an error nor panics. -/
def Spec.NeverFails (B : Builder) : Prop :=
  ∀ c b, CallOk c → ∃ a b', B.call c b = (.ok a, b')

/-- Types without content. -/
@[reducible] def unitTypes : BTypes :=
  { Command := Unit, CommandList := Unit, ListableCommand := Unit, PipeableCommand := Unit
    CompoundCommand := Unit, Word := Unit, Redirect := Unit, Error := Unit }

/-- Forgets what the builder has built. -/
@[reducible] def BMap.forget (T : BTypes) : BMap T unitTypes where
  command _ := ()
  commandList _ := ()
  listable _ := ()
  pipeable _ := ()
  compound _ := ()
  word _ := ()
  redirect _ := ()
  error _ := ()

/-- The result of a method without what the builder has built: whether it succeeded, how many
parts it has, the comments in it, and the error with its positions. -/
def Spec.shape {T : BTypes} (m : Method) : Res T.Error (m.Ret T) → Res Unit (m.Ret unitTypes)
  | .ok a => .ok (m.mapRet (BMap.forget T) a)
  | .err e => .err (e.map fun _ => ())
  | .panic n => .panic n
  | .fuel => .fuel

/-- `B`, panicking on calls that are not well-formed. -/
@[reducible] noncomputable def Guard (B : Builder) : Builder where
  toBTypes := B.toBTypes
  State := B.State
  call c b := by
    classical
    exact if CallOk c then B.call c b else (.panic, b)

@[reducible] def Theory.guard (B : Builder) (hB : NeverFails B) : Theory (Guard B) where
  J _ := True
  K _ := True
  KE _ _ := False
  KP _ := False
  HS := True
  LB := True
  FN := True
  next _ := trivial
  sub _ _ _ := trivial
  seen _ _ := trivial
  here _ _ _ := ⟨trivial, trivial⟩
  fn _ _ := trivial
  call := by
    intro c b _ hc _
    obtain ⟨a, b', h⟩ := hB c b hc
    simp only [hc, if_true, h]

/-- With a builder that never fails there is neither a builder error nor a builder panic. -/
theorem guard_run {B : Builder} (hB : NeverFails B) (m : Method) (s : PSt CIter (Guard B)) :
    (m.run s).1 ≠ .panic 0 ∧ ∀ e, (m.run s).1 ≠ .err (.Custom e) := by
  have ht := tr_method (T := Theory.guard B hB) m (s := s.abs) ⟨trivial, trivial⟩
  unfold Theory.Tr at ht
  rw [Method.run_abs] at ht
  constructor
  · intro h
    rw [h] at ht
    rcases ht with ⟨-, h⟩ | ⟨h, -⟩
    · exact h
    · cases h
  · intro e h
    rw [h] at ht
    exact ht.1

theorem run_guard {B : Builder} (hB : NeverFails B) (m : Method) (it : CIter) (b : B.State) :
    let r := m.run (⟨it, b⟩ : PSt CIter (Guard B))
    let r' := m.run (⟨it, b⟩ : PSt CIter B)
    r'.1 = r.1 ∧ r'.2.it = r.2.it ∧ r.2.b = r'.2.b :=
  method_hom (B := B) (call := (Guard B).call) (esc := True) (st := fun b b' => b = b')
    (by
      rintro c s _ rfl
      by_cases h : CallOk c
      · simp [h]
      · simp [h]) m it (b := b) (b' := b) rfl fun _ => (guard_run hB m ⟨it, b⟩).1

/-- The builder that builds nothing. -/
@[reducible] def unitBuilder : Builder where
  toBTypes := unitTypes
  State := Unit
  call c s := (match c with
    | .completeCommand .. | .andOrList .. | .pipeline .. | .simpleCommand .. | .braceGroup ..
    | .subshell .. | .loopCommand .. | .ifCommand .. | .forCommand .. | .caseCommand ..
    | .compoundCommandIntoPipeable .. | .functionDeclaration .. | .comments .. | .word ..
    | .redirect .. => .ok (), s)

/-- Forgetting is a homomorphism. -/
@[reducible] noncomputable def Guard.hom {B : Builder} (hB : NeverFails B) :
    Hom (Guard B) unitBuilder where
  toBMap := BMap.forget B.toBTypes
  st _ _ := True
  esc := True
  call := by
    intro c b b' _
    by_cases h : CallOk c
    · obtain ⟨a, b', h'⟩ := hB c b h
      simp only [h, if_true, h']
      cases c <;> exact ⟨rfl, trivial⟩
    · simp only [h, if_false]
      exact .inl trivial

theorem shape_unit {B : Builder} (hB : NeverFails B) (m : Method) (it : CIter) (b : B.State) :
    let r := m.run (⟨it, b⟩ : PSt CIter B)
    let u := m.run (⟨it, ()⟩ : PSt CIter unitBuilder)
    shape m r.1 = u.1 ∧ r.2.it = u.2.it := by
  intro r u
  obtain ⟨h1, h2, -⟩ := run_guard hB m it b
  obtain ⟨h3, h4⟩ := guard_run hB m ⟨it, b⟩
  have hr := rel_method (StreamSim.refl CIter) (Guard.hom hB) m
  unfold Rel at hr
  have hr := hr ⟨it, b⟩ ⟨it, ()⟩ ⟨rfl, trivial⟩
  show shape m (m.run (⟨it, b⟩ : PSt CIter B)).1 = _ ∧ (m.run (⟨it, b⟩ : PSt CIter B)).2.it = _
  rw [h1, h2]
  change Out _ _ _ _ u at hr
  generalize m.run (⟨it, b⟩ : PSt CIter (Guard B)) = z at hr h3 h4
  generalize u = z' at hr
  obtain ⟨z, s1⟩ := z
  obtain ⟨z', s1'⟩ := z'
  cases z with
  | panic n =>
    rcases hr with ⟨-, rfl⟩ | ⟨s2, h1, h2⟩
    · exact absurd rfl h3
    · cases h1; exact ⟨rfl, h2.1⟩
  | ok a =>
    cases z' <;> first | exact hr.elim | skip
    obtain ⟨h1, h2⟩ := hr
    exact ⟨by rw [h1]; rfl, h2.1⟩
  | err e =>
    rcases hr with ⟨h1, -⟩ | ⟨s2, h1, h2⟩
    · exact h1.elim
    · cases h1; exact ⟨rfl, h2.1⟩
  | fuel =>
    rcases hr with h1 | ⟨s2, h1, h2⟩
    · exact h1.elim
    · cases h1; exact ⟨rfl, h2.1⟩

/-- C19: with builders that never fail, every parsing method accepts the same input, fails with the
same error at the same positions, and stops at the same place, whatever the builder builds. -/
theorem C19_acceptance_independent_of_builder {B C : Builder} (hB : NeverFails B)
    (hC : NeverFails C) (m : Method) (it : CIter) (b : B.State) (c : C.State) :
    let r := m.run (⟨it, b⟩ : PSt CIter B)
    let r' := m.run (⟨it, c⟩ : PSt CIter C)
    shape m r.1 = shape m r'.1 ∧ r.2.it = r'.2.it := by
  intro r r'
  obtain ⟨h1, h2⟩ := shape_unit hB m it b
  obtain ⟨h3, h4⟩ := shape_unit hC m it c
  exact ⟨h1.trans h3.symm, h2.trans h4.symm⟩

theorem EmptyBuilder.neverFails : NeverFails EmptyBuilder := by
  intro c b _
  cases c <;> exact ⟨_, _, rfl⟩

/-- The default builders never fail on well-formed calls (the only panic is for an empty
pipeline). -/
theorem Core.neverFails (K : Core) : NeverFails K.builder := by
  intro c b h
  have : ∃ a, K.call c = .ok a := by
    cases c with
    | completeCommand _ _ sep _ => cases sep <;> exact ⟨_, rfl⟩
    | pipeline bang cmds =>
      obtain ⟨x, r, rfl⟩ := List.exists_cons_of_ne_nil h
      unfold Core.call
      cases bang <;> cases r <;> exact ⟨_, rfl⟩
    | loopCommand k _ _ => cases k <;> exact ⟨_, rfl⟩
    | _ => exact ⟨_, rfl⟩
  obtain ⟨a, h⟩ := this
  exact ⟨a, b, by rw [← h]⟩

/-- Forgetting what a builder has built, whether it fails or not. -/
@[reducible] def Hom.forget (B : Builder) : Hom B unitBuilder where
  toBMap := BMap.forget B.toBTypes
  st _ _ := True
  esc := True
  soft := True
  call := by
    intro c b b' _
    cases h : B.call c b with
    | mk o b1 =>
      cases o with
      | ok a => cases c <;> exact ⟨rfl, trivial⟩
      | err => exact .inl trivial
      | panic => exact .inl trivial

/-- C19: whatever a builder accepts that may fail on other inputs, every builder that never fails accepts, too: with a
result of the same shape, and stopping at the same place. So a builder that fails only restricts what is accepted. -/
theorem C19_success_with_any_builder {B C : Builder} (hC : NeverFails C) (m : Method) (it it' : CIter) (b b' : B.State)
    (c : C.State) (a : m.Ret B.toBTypes) (h : m.run (⟨it, b⟩ : PSt CIter B) = (.ok a, ⟨it', b'⟩)) :
    let r' := m.run (⟨it, c⟩ : PSt CIter C)
    shape m r'.1 = shape m (.ok a) ∧ r'.2.it = it' := by
  intro r'
  obtain ⟨h1, h2⟩ := shape_unit hC m it c
  have hr := rel_method (StreamSim.refl CIter) (Hom.forget B) m
  unfold Rel at hr
  have hr := hr ⟨it, b⟩ ⟨it, ()⟩ ⟨rfl, trivial⟩
  rw [h] at hr
  generalize m.run (⟨it, ()⟩ : PSt CIter unitBuilder) = z at hr h1 h2
  obtain ⟨z, s⟩ := z
  cases z <;> first | exact hr.elim | skip
  obtain ⟨h3, h4, -⟩ := hr
  have h4 : it' = s.it := h4
  exact ⟨h1.trans (by rw [h3]; rfl), h2.trans h4.symm⟩

/-- C19: and if a builder fails that may fail, then either the error is its own, or every builder that never fails fails
with the same error, at the same place. -/
theorem C19_failure_with_any_builder {B C : Builder} (hC : NeverFails C) (m : Method) (it it' : CIter) (b b' : B.State)
    (c : C.State) (e : ParseError B.Error) (h : m.run (⟨it, b⟩ : PSt CIter B) = (.err e, ⟨it', b'⟩)) :
    let r' := m.run (⟨it, c⟩ : PSt CIter C)
    (∃ x, e = .Custom x) ∨ shape m r'.1 = shape (T := B.toBTypes) m (.err e) ∧ r'.2.it = it' := by
  intro r'
  obtain ⟨h1, h2⟩ := shape_unit hC m it c
  have hr := rel_method (StreamSim.refl CIter) (Hom.forget B) m
  unfold Rel at hr
  have hr := hr ⟨it, b⟩ ⟨it, ()⟩ ⟨rfl, trivial⟩
  rw [h] at hr
  generalize m.run (⟨it, ()⟩ : PSt CIter unitBuilder) = z at hr h1 h2
  rcases hr with ⟨-, h3⟩ | ⟨s, rfl, h4, -⟩
  · exact .inl h3
  · have h4 : it' = s.it := h4
    exact .inr ⟨h1, h2.trans h4.symm⟩

/-- C19: `EmptyBuilder` accepts exactly what the default builders accept. -/
theorem C19_empty_and_default_builder (K : Core) (m : Method) (it : CIter) :
    let r := m.run (⟨it, ()⟩ : PSt CIter EmptyBuilder)
    let r' := m.run (⟨it, ()⟩ : PSt CIter K.builder)
    shape m r.1 = shape m r'.1 ∧ r.2.it = r'.2.it :=
  C19_acceptance_independent_of_builder EmptyBuilder.neverFails K.neverFails m it () ()

/-- C19: …in particular both accept a command or both do not. -/
theorem C19_same_commands (K : Core) (it : CIter) :
    let r := Method.completeCommand.run (⟨it, ()⟩ : PSt CIter EmptyBuilder)
    let r' := Method.completeCommand.run (⟨it, ()⟩ : PSt CIter K.builder)
    ((∃ c, r.1 = .ok (some c)) ↔ ∃ c, r'.1 = .ok (some c)) ∧ (r.1 = .ok none ↔ r'.1 = .ok none) := by
  intro r r'
  obtain ⟨h, -⟩ := C19_empty_and_default_builder K .completeCommand it
  change shape _ r.1 = shape _ r'.1 at h
  generalize r.1 = x at h
  generalize r'.1 = y at h
  match x, y, h with
  | .ok none, .ok none, _ => simp
  | .ok (some _), .ok (some _), _ => simp
  | .ok (some _), .ok none, h => simp [shape, Method.mapRet] at h
  | .ok none, .ok (some _), h => simp [shape, Method.mapRet] at h
  | .ok _, .err _, h => simp [shape] at h
  | .ok _, .panic _, h => simp [shape] at h
  | .ok _, .fuel, h => simp [shape] at h
  | .err _, .ok _, h => simp [shape] at h
  | .err _, .err _, h => simp
  | .err _, .panic _, h => simp
  | .err _, .fuel, h => simp
  | .panic _, .ok _, h => simp [shape] at h
  | .panic _, .err _, h => simp
  | .panic _, .panic _, h => simp
  | .panic _, .fuel, h => simp
  | .fuel, .ok _, h => simp [shape] at h
  | .fuel, .err _, h => simp
  | .fuel, .panic _, h => simp
  | .fuel, .fuel, h => simp

/-! ## Concrete cases -/

/-- A builder that rejects redirections. -/
@[reducible] def NoRedirects : Builder where
  toBTypes := unitTypes
  State := Unit
  call c s := (match c with
    | .redirect .. => .err ()
    | .completeCommand .. | .andOrList .. | .pipeline .. | .simpleCommand .. | .braceGroup ..
    | .subshell .. | .loopCommand .. | .ifCommand .. | .forCommand .. | .caseCommand ..
    | .compoundCommandIntoPipeable .. | .functionDeclaration .. | .comments .. | .word .. =>
      .ok (), s)

/-- C20: a nested error; the calls for `a`, `b` and the target `c` come before it, none after. -/
example : ∃ ev, ev ∈ (Method.completeCommand.run (⟨(parserOf "x=`{ a; b >c; d; }`; e").it,
    ([], ())⟩ : PSt CIter (Logged NoRedirects))).2.b.1 ∧ ev.error = some () := by
  have h : (Method.completeCommand.run (⟨(parserOf "x=`{ a; b >c; d; }`; e").it,
      ([], ())⟩ : PSt CIter (Logged NoRedirects))).2.b.1.any (·.error.isSome) = true := by
    decide +kernel
  obtain ⟨ev, h1, h2⟩ := List.any_eq_true.1 h
  obtain ⟨⟨⟩, h2⟩ := Option.isSome_iff_exists.1 h2
  exact ⟨ev, h1, h2⟩

/-- C36: the group of a loop in the middle of a source. -/
example : ∃ a s, Method.loopCommand.run (parserOf "while a; do b; done") = (.ok a, s) := by
  have h : (match (Method.loopCommand.run (parserOf "while a; do b; done")).1 with
    | .ok _ => true | _ => false) = true := by decide +kernel
  generalize Method.loopCommand.run (parserOf "while a; do b; done") = z at h
  obtain ⟨z, s⟩ := z
  cases z <;> first | (simp at h; done) | exact ⟨_, _, rfl⟩

end Conch
