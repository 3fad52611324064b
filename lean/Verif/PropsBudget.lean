import Verif.PropsParse
/-!
# C13, continued: the recursion of the code, without a budget

The model bounds the depth of the recursion between commands and substitutions (and inside arithmetic)
by a budget. Here: the budget makes no difference, the methods satisfy the recursion equations of the
code, and these equations have no other solution.
-/
namespace Conch

variable {B : Builder} {α : Type}

/-- The identity of a builder, relating a run that exhausts its budget to every run. -/
@[reducible] def Hom.budget (B : Builder) : Hom B B := { Hom.id B with short := True }

/-- Whenever `m` does not exhaust its budget, `m'` does the same. -/
def LeP (m m' : P CIter B α) : Prop := ∀ s, (m s).1 ≠ .fuel → m' s = m s

theorem LeP.rel {f : α → α} (hf : ∀ x, f x = x) {m m' : P CIter B α} (h : LeP m m') :
    Rel (StreamSim.refl CIter) (Hom.budget B) f m m' := by
  unfold Rel
  rintro s ⟨i, b⟩ ⟨h1, h2⟩
  cases h1
  cases h2
  have h := h s
  change Out _ _ _ (m s) (m' s)
  generalize m s = z at h
  generalize m' s = z' at h
  obtain ⟨z, t⟩ := z
  cases z with
  | fuel => exact .inl trivial
  | ok a => rw [h (by simp)]; exact ⟨(hf a).symm, rfl, rfl⟩
  | err e => rw [h (by simp)]; exact .inr ⟨_, by rw [ParseError.map_id], rfl, rfl⟩
  | panic n => rw [h (by simp)]; exact .inr ⟨_, rfl, rfl, rfl⟩

theorem LeP.of_rel {f : α → α} (hf : ∀ x, f x = x) {m m' : P CIter B α}
    (h : Rel (StreamSim.refl CIter) (Hom.budget B) f m m') : LeP m m' := by
  unfold Rel at h
  intro s hs
  have h := h s s ⟨rfl, rfl⟩
  have key : ∀ s1 s2 : PSt CIter B, SR (StreamSim.refl CIter) (Hom.budget B) s1 s2 → s2 = s1 := by
    rintro ⟨i1, b1⟩ ⟨i2, b2⟩ ⟨h1, h2⟩
    cases h1; cases h2; rfl
  generalize m s = z at h hs
  generalize m' s = z' at h
  obtain ⟨z, t⟩ := z
  obtain ⟨z', t'⟩ := z'
  cases z with
  | fuel => exact absurd rfl hs
  | panic n =>
    rcases h with h | ⟨s2, h, h2⟩
    · exact h.1.elim
    · cases h; rw [key _ _ h2]
  | ok a =>
    cases z' <;> first | exact h.elim | skip
    obtain ⟨h1, h2⟩ := h
    rw [key _ _ h2, h1, hf]
  | err e =>
    rcases h with h | ⟨s2, h, h2⟩
    · exact h.1.elim
    · cases h; rw [key _ _ h2, ParseError.map_id]

/-! ## Commands and substitutions -/

/-- The body of a method: the recursive calls of `command_group_internal` and `parameter_raw` are
calls of the argument's functions. -/
def Method.body {I : Type} [TokStream I] : (m : Method) → Rec I B → P I B (m.Ret B.toBTypes)
  | .completeCommand => Conch.completeCommand
  | .andOrList => Conch.andOrList
  | .pipeline => Conch.pipeline
  | .command => Conch.command
  | .simpleCommand => Conch.simpleCommand
  | .functionDeclaration => Conch.functionDeclaration
  | .redirectList => Conch.redirectList
  | .redirect => Conch.redirect
  | .redirectHeredoc fd => (Conch.redirectHeredoc · fd)
  | .word => Conch.word
  | .wordPreserveTrailingWhitespace => Conch.wordPreserve
  | .backtickedCommandSubstitution => Conch.backtickedCommandSubstitution
  | .parameter => Conch.parameter
  | .doGroup => Conch.doGroup
  | .braceGroup => Conch.braceGroup
  | .subshell => Conch.subshell
  | .commandGroup cfg => (Conch.commandGroup · cfg)
  | .compoundCommand => Conch.compoundCommand
  | .loopCommand => Conch.loopCommand
  | .ifCommand => Conch.ifCommand
  | .forCommand => Conch.forCommand
  | .caseCommand => Conch.caseCommand
  | .maybeFunctionDeclaration => Conch.maybeFunctionDeclaration
  | .skipWhitespace => fun _ => Conch.skipWhitespace
  | .linebreak => fun _ => Conch.linebreak
  | .newline => fun _ => Conch.newline
  | .peekReservedToken ts => fun _ => Conch.peekReservedToken ts
  | .peekReservedWord ws => fun _ => Conch.peekReservedWord ws
  | .reservedToken ts => fun _ => Conch.reservedToken ts
  | .reservedWord ws => fun _ => Conch.reservedWord ws
  | .arithmeticSubstitution => fun _ => Conch.arithmeticSubstitution

theorem Method.run_body (m : Method) (s : PSt CIter B) :
    m.run s = m.body (Rec.fix (TokStream.len s.it + 1)) s := by cases m <;> rfl

theorem rel_body {S : StreamSim CIter CIter} {H : Hom B B} {R R' : Rec CIter B} (h : RecRel S H R R') (m : Method) :
    Rel S H (m.mapRet H.toBMap) (m.body R) (m.body R') := by
  cases m with
  | completeCommand => exact rel_completeCommand h
  | andOrList => exact rel_andOrList h
  | pipeline => exact rel_pipeline h
  | command => exact rel_command h
  | simpleCommand => exact rel_simpleCommand h
  | redirectList => exact rel_redirectList h
  | redirect => exact rel_redirect h
  | redirectHeredoc fd => exact rel_redirectHeredoc h fd
  | word => exact rel_word h
  | wordPreserveTrailingWhitespace => exact rel_wordPreserve h
  | backtickedCommandSubstitution => exact rel_backtickedCommandSubstitution h
  | parameter => exact rel_parameter h
  | doGroup => exact rel_doGroup h
  | braceGroup => exact rel_braceGroup h
  | subshell => exact rel_subshellInternal h _
  | compoundCommand => exact rel_compoundCommand h
  | loopCommand => exact rel_loopCommand h
  | ifCommand => exact rel_ifCommand h
  | forCommand => exact rel_forCommand h
  | caseCommand => exact rel_caseCommand h
  | maybeFunctionDeclaration => exact rel_maybeFunctionDeclaration h
  | functionDeclaration => exact rel_functionDeclaration h
  | skipWhitespace => exact rel_skipWhitespace
  | linebreak => exact rel_linebreak
  | newline => exact rel_newline
  | peekReservedToken ts => exact rel_peekReservedToken ts
  | peekReservedWord ws => exact rel_peekReservedWord ws
  | reservedToken ts => exact rel_reservedToken ts
  | reservedWord ws => exact rel_reservedWord ws
  | commandGroup cfg => exact rel_commandGroup h cfg
  | arithmeticSubstitution => exact rel_arithmeticSubstitution

/-- `LeP` for both recursive functions. -/
structure LeR (R R' : Rec CIter B) : Prop where
  group : ∀ cfg, LeP (R.group cfg) (R'.group cfg)
  param : LeP R.param R'.param

theorem LeR.rel {R R' : Rec CIter B} (h : LeR R R') : RecRel (StreamSim.refl CIter) (Hom.budget B) R R' :=
  ⟨fun cfg => (h.group cfg).rel CommandGroup.map_id, h.param.rel SimpleWordKind.map_id⟩

theorem LeR.body {R R' : Rec CIter B} (h : LeR R R') (m : Method) : LeP (m.body R) (m.body R') :=
  .of_rel (Method.mapRet_id m) (rel_body h.rel m)

/-- The recursive calls of the code: `command_group_internal` and `parameter_raw` themselves,
parse.rs:2493-2532 and 1399-1420. -/
def Rec.knot (R : Rec CIter B) : Rec CIter B :=
  { group := fun cfg => commandGroupInternal R cfg, param := parameterRaw R }

theorem LeR.knot {R R' : Rec CIter B} (h : LeR R R') : LeR R.knot R'.knot :=
  ⟨fun cfg => .of_rel CommandGroup.map_id (rel_commandGroupInternal h.rel cfg),
    .of_rel SimpleWordKind.map_id (rel_parameterRaw h.rel)⟩

theorem LeR.fix_zero (R : Rec CIter B) : LeR (Rec.fix 0) R := ⟨fun _ _ h => absurd rfl h, fun _ h => absurd rfl h⟩

theorem LeR.fix {n k : Nat} : LeR (Rec.fix n : Rec CIter B) (Rec.fix (n + k)) := by
  induction n with
  | zero => exact .fix_zero _
  | succ n ih =>
    rw [show n + 1 + k = n + k + 1 by omega]
    exact ih.knot

theorem LeR.fix_of_knot {R : Rec CIter B} (h : R.knot = R) (n : Nat) : LeR (Rec.fix n) R := by
  induction n with
  | zero => exact .fix_zero _
  | succ n ih => rw [← h]; exact ih.knot

/-- **C13.** The budget makes no difference: with any larger one a method does the same. -/
theorem C13_budget_irrelevant (m : Method) (s : PSt CIter B) (n : Nat) (hn : TokStream.len s.it < n) :
    m.body (Rec.fix n) s = m.run s := by
  obtain ⟨k, rfl⟩ : ∃ k, n = TokStream.len s.it + 1 + k := ⟨n - (TokStream.len s.it + 1), by omega⟩
  rw [Method.run_body]
  exact LeR.fix.body m s (by rw [← Method.run_body]; exact C13_terminates m s)

theorem bind_fuel {β : Type} {m : P CIter B α} {k : α → P CIter B β} {s : PSt CIter B} (h : ((m >>= k) s).1 ≠ .fuel) :
    (m s).1 ≠ .fuel := by
  intro h'
  apply h
  show (P.bind m k s).1 = _
  unfold P.bind
  generalize m s = z at h'
  obtain ⟨z, t⟩ := z
  cases h'
  rfl

theorem fix_total (s : PSt CIter B) (n : Nat) (hn : TokStream.len s.it + 1 < n) :
    (∀ cfg, ((Rec.fix n : Rec CIter B).group cfg s).1 ≠ .fuel) ∧ ((Rec.fix n : Rec CIter B).param s).1 ≠ .fuel := by
  constructor
  · intro cfg
    refine bind_fuel (m := (Rec.fix n : Rec CIter B).group cfg)
      (k := fun g => if g.commands.isEmpty then unexpected else pure g) ?_
    have := C13_terminates (.commandGroup cfg) s
    rw [← C13_budget_irrelevant _ _ n (by omega)] at this
    exact this
  · obtain ⟨k, rfl⟩ : ∃ k, n = k + 1 := ⟨n - 1, by omega⟩
    refine bind_fuel (k := fun w => call (.word (.Single (.Simple w)))) ?_
    have := C13_terminates .parameter s
    rw [← C13_budget_irrelevant _ _ k (by omega)] at this
    exact this

/-- The functions `command_group_internal` and `parameter_raw` of the model, without a budget in sight. -/
def Rec.self : Rec CIter B :=
  { group := fun cfg => run (commandGroupInternal · cfg), param := run parameterRaw }

theorem fix_knot (n : Nat) : (Rec.fix (n + 1) : Rec CIter B) = (Rec.fix n).knot := rfl

theorem self_group (cfg : Delims) (s : PSt CIter B) :
    (Rec.self : Rec CIter B).group cfg s = (Rec.fix (TokStream.len s.it + 1)).knot.group cfg s := rfl

theorem self_param (s : PSt CIter B) :
    (Rec.self : Rec CIter B).param s = (Rec.fix (TokStream.len s.it + 1)).knot.param s := rfl

theorem LeR.fix_self (n : Nat) : LeR (Rec.fix n : Rec CIter B) Rec.self := by
  have key : ∀ (α : Type) (get : Rec CIter B → P CIter B α),
      (∀ n k, LeP (get (Rec.fix n)) (get (Rec.fix (n + k)))) →
      (∀ s n, TokStream.len s.it + 1 < n → (get (Rec.fix n) s).1 ≠ .fuel) →
      LeP (get (Rec.fix n)) (fun s => get (Rec.fix (TokStream.len s.it + 1)).knot s) := by
    intro α get h1 h2 s hs
    simp only [← fix_knot]
    rcases Nat.le_total n (TokStream.len s.it + 1 + 1) with h | h
    · obtain ⟨k, hk⟩ := Nat.exists_eq_add_of_le h
      rw [hk]
      exact h1 n k s hs
    · obtain ⟨k, rfl⟩ := Nat.exists_eq_add_of_le h
      exact (h1 _ k s (h2 s _ (by omega))).symm
  exact ⟨fun cfg => key _ (·.group cfg) (fun _ _ => LeR.fix.group cfg) (fun s n h => (fix_total s n h).1 cfg),
    key _ (·.param) (fun _ _ => LeR.fix.param) (fun s n h => (fix_total s n h).2)⟩

theorem self_total (s : PSt CIter B) :
    (∀ cfg, ((Rec.self : Rec CIter B).group cfg s).1 ≠ .fuel) ∧ ((Rec.self : Rec CIter B).param s).1 ≠ .fuel :=
  by
  have := fix_total s (TokStream.len s.it + 1 + 1) (by omega)
  rw [fix_knot] at this
  exact ⟨fun cfg => by rw [self_group]; exact this.1 cfg, by rw [self_param]; exact this.2⟩

/-- **C13.** The methods of the model satisfy the recursion equations of the code, in which no budget
occurs: every method is its body, with the recursive calls being calls of the functions themselves. -/
theorem C13_recursion_equations (m : Method) (s : PSt CIter B) :
    m.run s = m.body Rec.self s ∧ (Rec.self : Rec CIter B) = Rec.self.knot := by
  constructor
  · rw [Method.run_body]
    exact ((LeR.fix_self _).body m s (by rw [← Method.run_body]; exact C13_terminates m s)).symm
  · have h := (LeR.fix_self (B := B))
    have hg : ∀ cfg, (Rec.self : Rec CIter B).group cfg = Rec.self.knot.group cfg := by
      intro cfg
      funext s
      rw [self_group]
      exact ((h (TokStream.len s.it + 1)).knot.group cfg s (by rw [← self_group]; exact (self_total s).1 cfg)).symm
    have hp : (Rec.self : Rec CIter B).param = Rec.self.knot.param := by
      funext s
      rw [self_param]
      exact ((h (TokStream.len s.it + 1)).knot.param s (by rw [← self_param]; exact (self_total s).2)).symm
    have e : ∀ R R' : Rec CIter B, (∀ cfg, R.group cfg = R'.group cfg) → R.param = R'.param → R = R' := by
      rintro ⟨g, p⟩ ⟨g', p'⟩ h1 h2
      obtain rfl : g = g' := funext h1
      obtain rfl : p = p' := h2
      rfl
    exact e _ _ hg hp

/-- **C13.** The recursion equations have no other solution: whatever functions satisfy them, the
methods that use them do what the model's methods do. -/
theorem C13_recursion_unique (R : Rec CIter B) (h : R = R.knot) (m : Method) (s : PSt CIter B) :
    m.body R s = m.run s := by
  rw [Method.run_body]
  exact (LeR.fix_of_knot h.symm _).body m s (by rw [← Method.run_body]; exact C13_terminates m s)

/-! ## Arithmetic -/

structure LeA (R R' : ArithRec CIter B) : Prop where
  subst : LeP R.subst R'.subst
  assig : LeP R.assig R'.assig
  ternary : LeP R.ternary R'.ternary
  pow : LeP R.pow R'.pow
  unary : LeP R.unary R'.unary

theorem LeA.rel {R R' : ArithRec CIter B} (h : LeA R R') : ArithRel (StreamSim.refl CIter) (Hom.budget B) R R' :=
  ⟨h.subst.rel fun _ => rfl, h.assig.rel fun _ => rfl, h.ternary.rel fun _ => rfl, h.pow.rel fun _ => rfl,
    h.unary.rel fun _ => rfl⟩

/-- The recursive calls of the arithmetic functions, parse.rs:2536-2912. -/
def ArithRec.knot (R : ArithRec CIter B) : ArithRec CIter B :=
  { subst := arithSubst R, assig := arithAssig R, ternary := arithTernary R, pow := arithPow R, unary := arithUnary R }

theorem LeA.knot {R R' : ArithRec CIter B} (h : LeA R R') : LeA R.knot R'.knot :=
  ⟨.of_rel (fun _ => rfl) (rel_arithSubst h.rel), .of_rel (fun _ => rfl) (rel_arithAssig h.rel),
    .of_rel (fun _ => rfl) (rel_arithTernary h.rel), .of_rel (fun _ => rfl) (rel_arithPow h.rel),
    .of_rel (fun _ => rfl) (rel_arithUnary h.rel)⟩

theorem LeA.fix_of_knot {R : ArithRec CIter B} (h : R = R.knot) (n : Nat) : LeA (ArithRec.fix n) R := by
  induction n with
  | zero => constructor <;> exact fun _ h => absurd rfl h
  | succ n ih => rw [h]; exact ih.knot

theorem LeA.fix {n k : Nat} : LeA (ArithRec.fix n : ArithRec CIter B) (ArithRec.fix (n + k)) := by
  induction n with
  | zero => constructor <;> exact fun _ h => absurd rfl h
  | succ n ih =>
    rw [show n + 1 + k = n + k + 1 by omega]
    exact ih.knot

theorem not_fuel_of_rel {f : α → α} {m : P CIter B α} {m' : P AIter B α} (h : Rel cSim (Hom.id B) f m m')
    (s : PSt CIter B) (hs : (m' s.abs).1 ≠ .fuel) : (m s).1 ≠ .fuel := by
  unfold Rel at h
  have h := h s s.abs ⟨rfl, rfl⟩
  intro h'
  generalize m s = z at h h'
  obtain ⟨z, t⟩ := z
  cases h'
  rcases h with h | ⟨s2, h, -⟩
  · exact h.elim
  · exact hs (by rw [h])

theorem not_fuel_of_tr {m : P AIter B α} {s : PSt AIter B} {it0 : AIter} {Q}
    (h : (Theory.parts B it0 True).Tr m s Q) : (m s).1 ≠ .fuel := by
  unfold Theory.Tr at h
  intro h'
  rcases hz : m s with ⟨z, t⟩
  rw [hz] at h h'
  cases h'
  exact h

/-- All the arithmetic functions terminate. -/
theorem arith_total (s : PSt CIter B) (n : Nat) (hn : TokStream.len s.it < n) :
    ((ArithRec.fix n : ArithRec CIter B).subst s).1 ≠ .fuel ∧ ((ArithRec.fix n : ArithRec CIter B).assig s).1 ≠ .fuel ∧
    ((ArithRec.fix n : ArithRec CIter B).ternary s).1 ≠ .fuel ∧ ((ArithRec.fix n : ArithRec CIter B).pow s).1 ≠ .fuel ∧
    ((ArithRec.fix n : ArithRec CIter B).unary s).1 ≠ .fuel := by
  have hr := arithRel_fix (S := cSim) (H := Hom.id B) n
  have hg := arithGood_fix (T := Theory.parts B s.abs.it True) n
  have hl : s.abs.len < n := by
    have : TokStream.len s.it = s.abs.len := cSim.len rfl
    omega
  have hi := basic_inv s.abs
  exact ⟨not_fuel_of_rel hr.subst s (not_fuel_of_tr (hg.subst _ hi hl)),
    not_fuel_of_rel hr.assig s (not_fuel_of_tr (hg.assig _ hi hl)),
    not_fuel_of_rel hr.ternary s (not_fuel_of_tr (hg.ternary _ hi hl)),
    not_fuel_of_rel hr.pow s (not_fuel_of_tr (hg.pow _ hi hl)),
    not_fuel_of_rel hr.unary s (not_fuel_of_tr (hg.unary _ hi hl))⟩

/-- **C13.** The budget of the arithmetic functions makes no difference. -/
theorem C13_arith_budget_irrelevant (s : PSt CIter B) (n : Nat) (hn : TokStream.len s.it < n) :
    arithSubst (ArithRec.fix n) s = Method.arithmeticSubstitution.run s := by
  obtain ⟨k, rfl⟩ : ∃ k, n = TokStream.len s.it + 1 + k := ⟨n - (TokStream.len s.it + 1), by omega⟩
  exact (LeA.fix (k := k)).knot.subst s (C13_terminates .arithmeticSubstitution s)

/-- **C13.** The recursion equations of the arithmetic functions have a solution, and every solution does
what the model does. -/
theorem C13_arith_recursion :
    (∃ R : ArithRec CIter B, R = R.knot) ∧
    ∀ R : ArithRec CIter B, R = R.knot → R.subst = Method.arithmeticSubstitution.run := by
  constructor
  · let get : (ArithRec CIter B → P CIter B DefaultArithmetic) → P CIter B DefaultArithmetic :=
      fun f s => f (ArithRec.fix (TokStream.len s.it + 1)) s
    let R : ArithRec CIter B := ⟨get (·.subst), get (·.assig), get (·.ternary), get (·.pow), get (·.unary)⟩
    have key : ∀ (f : ArithRec CIter B → P CIter B DefaultArithmetic),
        (∀ n k, LeP (f (ArithRec.fix n)) (f (ArithRec.fix (n + k)))) →
        (∀ s n, TokStream.len s.it < n → (f (ArithRec.fix n) s).1 ≠ .fuel) →
        ∀ n, LeP (f (ArithRec.fix n)) (get f) := by
      intro f h1 h2 n s hs
      rcases Nat.le_total n (TokStream.len s.it + 1) with h | h
      · obtain ⟨k, hk⟩ := Nat.exists_eq_add_of_le h
        simp only [get]
        rw [hk]
        exact h1 n k s hs
      · obtain ⟨k, rfl⟩ := Nat.exists_eq_add_of_le h
        exact (h1 _ k s (h2 s _ (by omega))).symm
    have hR : ∀ n, LeA (ArithRec.fix n) R := fun n =>
      ⟨key (·.subst) (fun _ _ => LeA.fix.subst) (fun s n h => (arith_total s n h).1) n,
        key (·.assig) (fun _ _ => LeA.fix.assig) (fun s n h => (arith_total s n h).2.1) n,
        key (·.ternary) (fun _ _ => LeA.fix.ternary) (fun s n h => (arith_total s n h).2.2.1) n,
        key (·.pow) (fun _ _ => LeA.fix.pow) (fun s n h => (arith_total s n h).2.2.2.1) n,
        key (·.unary) (fun _ _ => LeA.fix.unary) (fun s n h => (arith_total s n h).2.2.2.2) n⟩
    refine ⟨R, ?_⟩
    have h := fun (s : PSt CIter B) => (hR (TokStream.len s.it)).knot
    have ht := fun (s : PSt CIter B) => arith_total s (TokStream.len s.it + 1) (by omega)
    have h1 : R.subst = R.knot.subst := funext fun s => ((h s).subst s (ht s).1).symm
    have h2 : R.assig = R.knot.assig := funext fun s => ((h s).assig s (ht s).2.1).symm
    have h3 : R.ternary = R.knot.ternary := funext fun s => ((h s).ternary s (ht s).2.2.1).symm
    have h4 : R.pow = R.knot.pow := funext fun s => ((h s).pow s (ht s).2.2.2.1).symm
    have h5 : R.unary = R.knot.unary := funext fun s => ((h s).unary s (ht s).2.2.2.2).symm
    have e : ∀ R R' : ArithRec CIter B, R.subst = R'.subst → R.assig = R'.assig → R.ternary = R'.ternary →
        R.pow = R'.pow → R.unary = R'.unary → R = R' := by
      rintro ⟨⟩ ⟨⟩ h1 h2 h3 h4 h5
      simp only at h1 h2 h3 h4 h5
      rw [h1, h2, h3, h4, h5]
    exact e _ _ h1 h2 h3 h4 h5
  · intro R h
    funext s
    conv_lhs => rw [h]
    exact (LeA.fix_of_knot h (TokStream.len s.it + 1)).knot.subst s (C13_terminates .arithmeticSubstitution s)

/-! ## Loops -/

/-- **C13.** A loop that ends within its budget does the same with any larger one. (That every loop
ends within its budget is `C13_terminates`.) -/
theorem C13_loop_budget {σ : Type} (body : σ → P CIter B (Step σ α)) (x : σ) (s : PSt CIter B) (n : Nat)
    (h : (loop body x s).1 ≠ .fuel) (hn : TokStream.len s.it + 2 ≤ n) : loopN body n x s = loop body x s := by
  obtain ⟨k, rfl⟩ := Nat.exists_eq_add_of_le hn
  unfold loop at h ⊢
  generalize TokStream.len s.it + 2 = n at h ⊢
  clear hn
  induction n generalizing x s with
  | zero => exact absurd rfl h
  | succ n ih =>
    rw [show n + 1 + k = n + k + 1 by omega]
    unfold loopN at h ⊢
    change (P.bind _ _ s).1 ≠ _ at h
    change P.bind _ _ s = P.bind _ _ s
    unfold P.bind at h ⊢
    generalize body x s = z at h ⊢
    obtain ⟨z, t⟩ := z
    cases z with
    | ok a =>
      cases a with
      | cont y => exact ih y t h
      | done a => rfl
    | err e => rfl
    | panic n => rfl
    | fuel => rfl

end Conch
