import Verif.Replay
/-!
# C60: maps of calls

Two maps of a call agree if they agree on the values in it; a map that is injective on values is injective on calls.
-/
namespace Conch
open Spec

/-! ## Agreement -/

section
variable {R S S' T : Type}

/-- Two composed maps agree at `x`. -/
def AgreeAt (f : R → S) (f' : S → T) (g : R → S') (g' : S' → T) (x : R) : Prop := f' (f x) = g' (g x)

variable {f : R → S} {f' : S → T} {g : R → S'} {g' : S' → T}

theorem agree_list {l : List R} (h : ∀ x ∈ l, AgreeAt f f' g g' x) : (l.map f).map f' = (l.map g).map g' := by
  simp only [List.map_map]
  exact List.map_congr_left fun x hx => h x hx

theorem agree_opt {l : Option R} (h : ∀ x ∈ l, AgreeAt f f' g g' x) : (l.map f).map f' = (l.map g).map g' := by
  cases l with
  | none => rfl
  | some x => exact congrArg some (h x rfl)

theorem agree_group {x : CommandGroup R} (h : ∀ y ∈ x.commands, AgreeAt f f' g g' y) :
    (x.map f).map f' = (x.map g).map g' := by
  simp only [CommandGroup.map, agree_list h]

mutual
theorem agree_word : ∀ {w : ComplexWordKind R}, (∀ y ∈ cmdsIn w, AgreeAt f f' g g' y) →
    (w.map f).map f' = (w.map g).map g'
  | .Concat ws, h => by
    simp only [ComplexWordKind.map]
    rw [agree_parts h]
  | .Single w, h => by
    simp only [ComplexWordKind.map]
    rw [agree_part h]
theorem agree_parts : ∀ {ws : List (WordKind R)}, (∀ y ∈ partsCmds ws, AgreeAt f f' g g' y) →
    mapWordKinds f' (mapWordKinds f ws) = mapWordKinds g' (mapWordKinds g ws)
  | [], _ => rfl
  | w :: ws, h => by
    simp only [partsCmds, List.mem_append] at h
    simp only [mapWordKinds]
    rw [agree_part fun y hy => h y (.inl hy), agree_parts fun y hy => h y (.inr hy)]
theorem agree_part : ∀ {w : WordKind R}, (∀ y ∈ partCmds w, AgreeAt f f' g g' y) →
    (w.map f).map f' = (w.map g).map g'
  | .Simple s, h => by
    simp only [WordKind.map]
    rw [agree_simple h]
  | .DoubleQuoted ss, h => by
    simp only [WordKind.map]
    rw [agree_simples h]
  | .SingleQuoted s, _ => rfl
theorem agree_simples : ∀ {ws : List (SimpleWordKind R)}, (∀ y ∈ simplesCmds ws, AgreeAt f f' g g' y) →
    mapSimpleKinds f' (mapSimpleKinds f ws) = mapSimpleKinds g' (mapSimpleKinds g ws)
  | [], _ => rfl
  | w :: ws, h => by
    simp only [simplesCmds, List.mem_append] at h
    simp only [mapSimpleKinds]
    rw [agree_simple fun y hy => h y (.inl hy), agree_simples fun y hy => h y (.inr hy)]
theorem agree_simple : ∀ {w : SimpleWordKind R}, (∀ y ∈ simpleCmds w, AgreeAt f f' g g' y) →
    (w.map f).map f' = (w.map g).map g'
  | .Literal _, _ | .Param _, _ | .Escaped _, _ | .Star, _ | .Question, _ | .SquareOpen, _ | .SquareClose, _
  | .Tilde, _ | .Colon, _ => rfl
  | .CommandSubst x, h => by
    simp only [SimpleWordKind.map]
    rw [agree_group h]
  | .Subst s, h => by
    simp only [SimpleWordKind.map]
    rw [agree_subst h]
theorem agree_subst : ∀ {s : ParameterSubstitutionKind (ComplexWordKind R) R},
    (∀ y ∈ substCmds s, AgreeAt f f' g g' y) →
    mapSubstKind f' (mapSubstKind f s) = mapSubstKind g' (mapSubstKind g s)
  | .Command x, h => by
    simp only [mapSubstKind]
    rw [agree_group h]
  | .Len _, _ | .Arith _, _ => rfl
  | .Default _ _ w, h => by simp only [mapSubstKind]; rw [agree_optWord h]
  | .Assign _ _ w, h => by simp only [mapSubstKind]; rw [agree_optWord h]
  | .Error _ _ w, h => by simp only [mapSubstKind]; rw [agree_optWord h]
  | .Alternative _ _ w, h => by simp only [mapSubstKind]; rw [agree_optWord h]
  | .RemoveSmallestSuffix _ w, h => by simp only [mapSubstKind]; rw [agree_optWord h]
  | .RemoveLargestSuffix _ w, h => by simp only [mapSubstKind]; rw [agree_optWord h]
  | .RemoveSmallestPrefix _ w, h => by simp only [mapSubstKind]; rw [agree_optWord h]
  | .RemoveLargestPrefix _ w, h => by simp only [mapSubstKind]; rw [agree_optWord h]
theorem agree_optWord : ∀ {w : Option (ComplexWordKind R)}, (∀ y ∈ optCmds w, AgreeAt f f' g g' y) →
    mapOptWord f' (mapOptWord f w) = mapOptWord g' (mapOptWord g w)
  | none, _ => rfl
  | some w, h => by
    simp only [mapOptWord]
    rw [agree_word h]
end

end

section
variable {R S S' T : BTypes}

/-- Two composed maps agree on a value. -/
def Agree (F : BMap R S) (F' : BMap S T) (G : BMap R S') (G' : BMap S' T) : Val R → Prop
  | .command x => AgreeAt F.command F'.command G.command G'.command x
  | .commandList x => AgreeAt F.commandList F'.commandList G.commandList G'.commandList x
  | .listable x => AgreeAt F.listable F'.listable G.listable G'.listable x
  | .pipeable x => AgreeAt F.pipeable F'.pipeable G.pipeable G'.pipeable x
  | .compound x => AgreeAt F.compound F'.compound G.compound G'.compound x
  | .word x => AgreeAt F.word F'.word G.word G'.word x
  | .redirect x => AgreeAt F.redirect F'.redirect G.redirect G'.redirect x

variable {F : BMap R S} {F' : BMap S T} {G : BMap R S'} {G' : BMap S' T}

theorem agree_groupVals {x : CommandGroup R.Command} (h : ∀ v ∈ groupVals x, Agree F F' G G' v) :
    (x.map F.command).map F'.command = (x.map G.command).map G'.command :=
  agree_group fun y hy => h (.command y) (List.mem_map.2 ⟨y, hy, rfl⟩)

theorem agree_pairVals {x : GuardBodyPairGroup R.Command} (h : ∀ v ∈ pairVals x, Agree F F' G G' v) :
    (x.map F.command).map F'.command = (x.map G.command).map G'.command := by
  simp only [pairVals, List.mem_append] at h
  simp only [GuardBodyPairGroup.map]
  rw [agree_groupVals fun v hv => h v (.inl hv), agree_groupVals fun v hv => h v (.inr hv)]

theorem agree_redirects {x : List R.Redirect} (h : ∀ v ∈ x.map Val.redirect, Agree F F' G G' v) :
    (x.map F.redirect).map F'.redirect = (x.map G.redirect).map G'.redirect :=
  agree_list fun y hy => h (.redirect y) (List.mem_map.2 ⟨y, hy, rfl⟩)

theorem agree_words {x : List R.Word} (h : ∀ v ∈ x.map Val.word, Agree F F' G G' v) :
    (x.map F.word).map F'.word = (x.map G.word).map G'.word :=
  agree_list fun y hy => h (.word y) (List.mem_map.2 ⟨y, hy, rfl⟩)

theorem agree_if {x : IfFragments R.Command} (h : ∀ v ∈ ifVals x, Agree F F' G G' v) :
    (x.map F.command).map F'.command = (x.map G.command).map G'.command := by
  obtain ⟨cs, e⟩ := x
  simp only [ifVals, List.mem_append, List.mem_flatMap] at h
  simp only [IfFragments.map]
  congr 1
  · refine agree_list fun y hy => ?_
    exact agree_pairVals fun v hv => h v (.inl ⟨y, hy, hv⟩)
  · refine agree_opt fun y hy => ?_
    exact agree_groupVals fun v hv => h v (.inr ⟨y, by simpa using hy, hv⟩)

theorem agree_for {x : ForFragments R.Word R.Command} (h : ∀ v ∈ forVals x, Agree F F' G G' v) :
    (x.map F.command F.word).map F'.command F'.word = (x.map G.command G.word).map G'.command G'.word := by
  obtain ⟨a, b, ws, d, e⟩ := x
  simp only [forVals, List.mem_append, List.mem_flatMap] at h
  simp only [ForFragments.map]
  rw [agree_groupVals fun v hv => h v (.inr hv)]
  congr 1
  refine agree_opt fun y hy => ?_
  obtain ⟨y1, y2, y3⟩ := y
  have : (y2.map F.word).map F'.word = (y2.map G.word).map G'.word :=
    agree_words fun v hv => h v (.inl ⟨_, by simpa using hy, hv⟩)
  simp only [AgreeAt, this]

theorem agree_arm {x : CaseArm R.Word R.Command} (h : ∀ v ∈ armVals x, Agree F F' G G' v) :
    (x.map F.command F.word).map F'.command F'.word = (x.map G.command G.word).map G'.command G'.word := by
  obtain ⟨⟨a, b, c⟩, d, e⟩ := x
  simp only [armVals, List.mem_append] at h
  simp only [CaseArm.map, CasePatternFragments.map]
  rw [agree_groupVals fun v hv => h v (.inr hv), agree_words fun v hv => h v (.inl hv)]

theorem agree_case {x : CaseFragments R.Word R.Command} (h : ∀ v ∈ caseVals x, Agree F F' G G' v) :
    (x.map F.command F.word).map F'.command F'.word = (x.map G.command G.word).map G'.command G'.word := by
  obtain ⟨a, b, c, d, e⟩ := x
  simp only [caseVals, List.mem_cons, List.mem_flatMap] at h
  simp only [CaseFragments.map]
  congr 1
  · exact h _ (.inl rfl)
  · refine agree_list fun y hy => ?_
    exact agree_arm fun v hv => h v (.inr ⟨y, hy, hv⟩)

theorem agree_assign {x : RedirectOrEnvVar R.Redirect Str R.Word} (h : ∀ v ∈ assignVals x, Agree F F' G G' v) :
    (x.map F.word F.redirect).map F'.word F'.redirect = (x.map G.word G.redirect).map G'.word G'.redirect := by
  cases x with
  | Redirect r => exact congrArg RedirectOrEnvVar.Redirect (h (.redirect r) (List.mem_singleton.2 rfl))
  | EnvVar n w =>
    refine congrArg (RedirectOrEnvVar.EnvVar n) (agree_opt fun y hy => ?_)
    exact h (.word y) (List.mem_map.2 ⟨y, by simpa using hy, rfl⟩)

theorem agree_arg {x : RedirectOrCmdWord R.Redirect R.Word} (h : ∀ v ∈ argVals x, Agree F F' G G' v) :
    (x.map F.word F.redirect).map F'.word F'.redirect = (x.map G.word G.redirect).map G'.word G'.redirect := by
  cases x with
  | Redirect r => exact congrArg RedirectOrCmdWord.Redirect (h (.redirect r) (List.mem_singleton.2 rfl))
  | CmdWord w => exact congrArg RedirectOrCmdWord.CmdWord (h (.word w) (List.mem_singleton.2 rfl))

theorem agree_andOr {x : AndOr R.ListableCommand} (h : ∀ v ∈ andOrVals x, Agree F F' G G' v) :
    (x.map F.listable).map F'.listable = (x.map G.listable).map G'.listable := by
  cases x with
  | And r => exact congrArg AndOr.And (h (.listable r) (List.mem_singleton.2 rfl))
  | Or r => exact congrArg AndOr.Or (h (.listable r) (List.mem_singleton.2 rfl))

/-- Maps of a call agree if they agree on the values in its arguments. -/
theorem agree_call {c : Call R} (h : ∀ v ∈ args c, Agree F F' G G' v) :
    (c.map F).map F' = (c.map G).map G' := by
  cases c with
  | completeCommand a l s d =>
    exact congrArg (fun l => Call.completeCommand a l s d) (h (.commandList l) (List.mem_singleton.2 rfl))
  | andOrList x rest =>
    simp only [args, List.mem_cons, List.mem_flatMap] at h
    simp only [Call.map]
    congr 1
    · exact h (.listable x) (.inl rfl)
    · refine agree_list fun y hy => ?_
      simp only [AgreeAt]
      rw [agree_andOr fun v hv => h v (.inr ⟨y, hy, hv⟩)]
  | pipeline b cmds =>
    refine congrArg (Call.pipeline b) (agree_list fun y hy => ?_)
    exact congrArg (Prod.mk y.1) (h (.pipeable y.2) (List.mem_map.2 ⟨y, hy, rfl⟩))
  | simpleCommand vs as =>
    simp only [args, List.mem_append, List.mem_flatMap] at h
    simp only [Call.map]
    congr 1
    · refine agree_list fun y hy => agree_assign fun v hv => h v (.inl ⟨y, hy, hv⟩)
    · refine agree_list fun y hy => agree_arg fun v hv => h v (.inr ⟨y, hy, hv⟩)
  | braceGroup x io | subshell x io =>
    simp only [args, List.mem_append] at h
    simp only [Call.map]
    rw [agree_groupVals fun v hv => h v (.inl hv), agree_redirects fun v hv => h v (.inr hv)]
  | loopCommand k x io =>
    simp only [args, List.mem_append] at h
    simp only [Call.map]
    rw [agree_pairVals fun v hv => h v (.inl hv), agree_redirects fun v hv => h v (.inr hv)]
  | ifCommand x io =>
    simp only [args, List.mem_append] at h
    simp only [Call.map]
    rw [agree_if fun v hv => h v (.inl hv), agree_redirects fun v hv => h v (.inr hv)]
  | forCommand x io =>
    simp only [args, List.mem_append] at h
    simp only [Call.map]
    rw [agree_for fun v hv => h v (.inl hv), agree_redirects fun v hv => h v (.inr hv)]
  | caseCommand x io =>
    simp only [args, List.mem_append] at h
    simp only [Call.map]
    rw [agree_case fun v hv => h v (.inl hv), agree_redirects fun v hv => h v (.inr hv)]
  | compoundCommandIntoPipeable x =>
    exact congrArg Call.compoundCommandIntoPipeable (h (.compound x) (List.mem_singleton.2 rfl))
  | functionDeclaration n cs x =>
    exact congrArg (Call.functionDeclaration n cs) (h (.compound x) (List.mem_singleton.2 rfl))
  | comments => rfl
  | word k =>
    exact congrArg Call.word (agree_word fun y hy => h (.command y) (List.mem_map.2 ⟨y, hy, rfl⟩))
  | redirect k =>
    have : ∀ w, redirVals k = [.word w] → F'.word (F.word w) = G'.word (G.word w) :=
      fun w e => h (.word w) (by rw [args, e]; exact List.mem_singleton.2 rfl)
    cases k <;> simp only [Call.map, RedirectKind.map, this _ rfl]

/-- Maps of a method's result agree if they agree on the values in it. -/
theorem agree_ret {m : Method} {a : m.Ret R} (h : ∀ v ∈ returned m a, Agree F F' G G' v) :
    m.mapRet F' (m.mapRet F a) = m.mapRet G' (m.mapRet G a) := by
  cases m with
  | completeCommand =>
    exact agree_opt fun y hy => h (.command y) (List.mem_map.2 ⟨y, by simpa using hy, rfl⟩)
  | andOrList => exact h (.commandList a) (List.mem_singleton.2 rfl)
  | pipeline => exact h (.listable a) (List.mem_singleton.2 rfl)
  | command | simpleCommand | functionDeclaration => exact h (.pipeable a) (List.mem_singleton.2 rfl)
  | redirectList => exact agree_redirects h
  | redirect =>
    refine agree_opt fun y hy => ?_
    cases hy
    cases y with
    | inl r => exact congrArg Sum.inl (h (.redirect r) (List.mem_singleton.2 rfl))
    | inr r => exact congrArg Sum.inr (h (.word r) (List.mem_singleton.2 rfl))
  | redirectHeredoc => exact h (.redirect a) (List.mem_singleton.2 rfl)
  | word | wordPreserveTrailingWhitespace =>
    exact agree_opt fun y hy => h (.word y) (List.mem_map.2 ⟨y, by simpa using hy, rfl⟩)
  | backtickedCommandSubstitution | parameter => exact h (.word a) (List.mem_singleton.2 rfl)
  | doGroup | braceGroup | subshell | commandGroup => exact agree_groupVals h
  | compoundCommand => exact h (.compound a) (List.mem_singleton.2 rfl)
  | loopCommand => exact congrArg (Prod.mk a.1) (agree_pairVals h)
  | ifCommand => exact agree_if h
  | forCommand => exact agree_for h
  | caseCommand => exact agree_case h
  | maybeFunctionDeclaration =>
    exact agree_opt fun y hy => h (.pipeable y) (List.mem_map.2 ⟨y, by simpa using hy, rfl⟩)
  | skipWhitespace | linebreak | newline | peekReservedToken | peekReservedWord | reservedToken | reservedWord
  | arithmeticSubstitution => rfl

end

/-! ## Well-formed calls -/

theorem NonEmpty.map {C D : Type} {f : C → D} {g : CommandGroup C} (h : NonEmpty g) : NonEmpty (g.map f) := by
  simpa [NonEmpty, CommandGroup.map] using h

theorem CallOk.map {S T : BTypes} (F : BMap S T) {c : Call S} (h : CallOk c) : CallOk (c.map F) := by
  cases c with
  | completeCommand => exact h
  | andOrList | compoundCommandIntoPipeable | functionDeclaration | redirect => trivial
  | pipeline b cmds => simpa [CallOk, Call.map] using h
  | simpleCommand vs as => simpa [CallOk, Call.map] using h
  | braceGroup => exact NonEmpty.map h
  | subshell g io =>
    rcases h with h | ⟨rfl, h⟩
    · exact .inl (NonEmpty.map h)
    · exact .inr ⟨rfl, h⟩
  | loopCommand => exact ⟨NonEmpty.map h.1, NonEmpty.map h.2⟩
  | ifCommand f io =>
    obtain ⟨h1, h2, h3⟩ := h
    refine ⟨by simpa [IfFragments.map] using h1, ?_, ?_⟩
    · intro p hp
      obtain ⟨q, hq, rfl⟩ := List.mem_map.1 hp
      exact ⟨NonEmpty.map (h2 q hq).1, NonEmpty.map (h2 q hq).2⟩
    · intro g hg
      obtain ⟨q, hq, rfl⟩ := Option.map_eq_some_iff.1 hg
      exact NonEmpty.map (h3 q hq)
  | forCommand => exact NonEmpty.map h
  | caseCommand f io =>
    intro a ha
    obtain ⟨q, hq, rfl⟩ := List.mem_map.1 ha
    simpa [CaseArm.map, CasePatternFragments.map] using h q hq
  | comments => exact h
  | word k =>
    cases k with
    | Single => trivial
    | Concat ws =>
      have h : 2 ≤ ws.length := h
      show 2 ≤ (mapWordKinds F.command ws).length
      rw [mapWordKinds_eq]
      simpa using h

/-! ## Injectivity -/

section
variable {C D : Type} {f : C → D} (hf : Function.Injective f)
include hf

theorem inj_group : Function.Injective (CommandGroup.map f) := by
  rintro ⟨a, b⟩ ⟨a', b'⟩ h
  simp only [CommandGroup.map, CommandGroup.mk.injEq] at h
  rw [List.map_injective_iff.2 hf h.1, h.2]

theorem inj_pair : Function.Injective (GuardBodyPairGroup.map f) := by
  rintro ⟨a, b⟩ ⟨a', b'⟩ h
  simp only [GuardBodyPairGroup.map, GuardBodyPairGroup.mk.injEq] at h
  rw [inj_group hf h.1, inj_group hf h.2]

theorem inj_if : Function.Injective (IfFragments.map f) := by
  rintro ⟨a, b⟩ ⟨a', b'⟩ h
  simp only [IfFragments.map, IfFragments.mk.injEq] at h
  rw [List.map_injective_iff.2 (inj_pair hf) h.1, Option.map_injective (inj_group hf) h.2]

mutual
theorem inj_word : ∀ (w v : ComplexWordKind C), w.map f = v.map f → w = v
  | .Concat ws, v => by
    cases v <;> simp only [ComplexWordKind.map, ComplexWordKind.Concat.injEq, reduceCtorEq, IsEmpty.forall_iff]
    exact inj_parts ws _
  | .Single w, v => by
    cases v <;> simp only [ComplexWordKind.map, ComplexWordKind.Single.injEq, reduceCtorEq, IsEmpty.forall_iff]
    exact inj_part w _
theorem inj_parts : ∀ (ws vs : List (WordKind C)), mapWordKinds f ws = mapWordKinds f vs → ws = vs
  | [], vs => by cases vs <;> simp [mapWordKinds]
  | w :: ws, vs => by
    cases vs with
    | nil => simp [mapWordKinds]
    | cons v vs =>
      simp only [mapWordKinds, List.cons.injEq]
      exact fun h => ⟨inj_part w v h.1, inj_parts ws vs h.2⟩
theorem inj_part : ∀ (w v : WordKind C), w.map f = v.map f → w = v
  | .Simple s, v => by
    cases v <;> simp only [WordKind.map, WordKind.Simple.injEq, reduceCtorEq, IsEmpty.forall_iff]
    exact inj_simple s _
  | .DoubleQuoted ss, v => by
    cases v <;> simp only [WordKind.map, WordKind.DoubleQuoted.injEq, reduceCtorEq, IsEmpty.forall_iff]
    exact inj_simples ss _
  | .SingleQuoted s, v => by
    cases v <;> simp [WordKind.map]
theorem inj_simples : ∀ (ws vs : List (SimpleWordKind C)), mapSimpleKinds f ws = mapSimpleKinds f vs → ws = vs
  | [], vs => by cases vs <;> simp [mapSimpleKinds]
  | w :: ws, vs => by
    cases vs with
    | nil => simp [mapSimpleKinds]
    | cons v vs =>
      simp only [mapSimpleKinds, List.cons.injEq]
      exact fun h => ⟨inj_simple w v h.1, inj_simples ws vs h.2⟩
theorem inj_simple : ∀ (w v : SimpleWordKind C), w.map f = v.map f → w = v
  | .Literal _, v | .Param _, v | .Escaped _, v | .Star, v | .Question, v | .SquareOpen, v | .SquareClose, v
  | .Tilde, v | .Colon, v => by
    cases v <;> simp [SimpleWordKind.map]
  | .CommandSubst x, v => by
    cases v <;> simp only [SimpleWordKind.map, SimpleWordKind.CommandSubst.injEq, reduceCtorEq, IsEmpty.forall_iff]
    exact fun h => inj_group hf h
  | .Subst s, v => by
    cases v <;> simp only [SimpleWordKind.map, SimpleWordKind.Subst.injEq, reduceCtorEq, IsEmpty.forall_iff]
    exact inj_subst s _
theorem inj_subst : ∀ (s t : ParameterSubstitutionKind (ComplexWordKind C) C), mapSubstKind f s = mapSubstKind f t →
    s = t
  | .Command x, v => by
    cases v <;> simp only [mapSubstKind, ParameterSubstitutionKind.Command.injEq, reduceCtorEq, IsEmpty.forall_iff]
    exact fun h => inj_group hf h
  | .Len _, v | .Arith _, v => by cases v <;> simp [mapSubstKind]
  | .Default _ _ w, v => by
    cases v <;> simp only [mapSubstKind, ParameterSubstitutionKind.Default.injEq, reduceCtorEq, IsEmpty.forall_iff]
    exact fun h => ⟨h.1, h.2.1, inj_optWord w _ h.2.2⟩
  | .Assign _ _ w, v => by
    cases v <;> simp only [mapSubstKind, ParameterSubstitutionKind.Assign.injEq, reduceCtorEq, IsEmpty.forall_iff]
    exact fun h => ⟨h.1, h.2.1, inj_optWord w _ h.2.2⟩
  | .Error _ _ w, v => by
    cases v <;> simp only [mapSubstKind, ParameterSubstitutionKind.Error.injEq, reduceCtorEq, IsEmpty.forall_iff]
    exact fun h => ⟨h.1, h.2.1, inj_optWord w _ h.2.2⟩
  | .Alternative _ _ w, v => by
    cases v <;> simp only [mapSubstKind, ParameterSubstitutionKind.Alternative.injEq, reduceCtorEq,
      IsEmpty.forall_iff]
    exact fun h => ⟨h.1, h.2.1, inj_optWord w _ h.2.2⟩
  | .RemoveSmallestSuffix _ w, v => by
    cases v <;> simp only [mapSubstKind, ParameterSubstitutionKind.RemoveSmallestSuffix.injEq, reduceCtorEq,
      IsEmpty.forall_iff]
    exact fun h => ⟨h.1, inj_optWord w _ h.2⟩
  | .RemoveLargestSuffix _ w, v => by
    cases v <;> simp only [mapSubstKind, ParameterSubstitutionKind.RemoveLargestSuffix.injEq, reduceCtorEq,
      IsEmpty.forall_iff]
    exact fun h => ⟨h.1, inj_optWord w _ h.2⟩
  | .RemoveSmallestPrefix _ w, v => by
    cases v <;> simp only [mapSubstKind, ParameterSubstitutionKind.RemoveSmallestPrefix.injEq, reduceCtorEq,
      IsEmpty.forall_iff]
    exact fun h => ⟨h.1, inj_optWord w _ h.2⟩
  | .RemoveLargestPrefix _ w, v => by
    cases v <;> simp only [mapSubstKind, ParameterSubstitutionKind.RemoveLargestPrefix.injEq, reduceCtorEq,
      IsEmpty.forall_iff]
    exact fun h => ⟨h.1, inj_optWord w _ h.2⟩
theorem inj_optWord : ∀ (w v : Option (ComplexWordKind C)), mapOptWord f w = mapOptWord f v → w = v
  | none, v => by cases v <;> simp [mapOptWord]
  | some w, v => by
    cases v <;> simp only [mapOptWord, Option.some.injEq, reduceCtorEq, IsEmpty.forall_iff]
    exact inj_word w _
end

end

section
variable {C D W V R Q : Type} {f : C → D} {w : W → V} {r : R → Q} (hf : Function.Injective f)
  (hw : Function.Injective w) (hr : Function.Injective r)

include hf hw in
theorem inj_for : Function.Injective (ForFragments.map f w) := by
  rintro ⟨a, b, c, d, e⟩ ⟨a', b', c', d', e'⟩ h
  simp only [ForFragments.map, ForFragments.mk.injEq] at h
  obtain ⟨rfl, rfl, h1, rfl, h2⟩ := h
  have : Function.Injective fun x : List Nl × List W × Option Nl => (x.1, x.2.1.map w, x.2.2) := by
    rintro ⟨a, b, c⟩ ⟨a', b', c'⟩ h
    simp only [Prod.mk.injEq] at h
    rw [h.1, List.map_injective_iff.2 hw h.2.1, h.2.2]
  rw [Option.map_injective this h1, inj_group hf h2]

include hf hw in
theorem inj_arm : Function.Injective (CaseArm.map f w) := by
  rintro ⟨⟨a, b, c⟩, d, e⟩ ⟨⟨a', b', c'⟩, d', e'⟩ h
  simp only [CaseArm.map, CasePatternFragments.map, CaseArm.mk.injEq, CasePatternFragments.mk.injEq] at h
  obtain ⟨⟨rfl, h1, rfl⟩, h2, rfl⟩ := h
  rw [List.map_injective_iff.2 hw h1, inj_group hf h2]

include hf hw in
theorem inj_case : Function.Injective (CaseFragments.map f w) := by
  rintro ⟨a, b, c, d, e⟩ ⟨a', b', c', d', e'⟩ h
  simp only [CaseFragments.map, CaseFragments.mk.injEq] at h
  obtain ⟨h1, rfl, rfl, h2, rfl⟩ := h
  rw [hw h1, List.map_injective_iff.2 (inj_arm hf hw) h2]

include hw hr in
theorem inj_assign {N : Type} : Function.Injective (RedirectOrEnvVar.map (N := N) w r) := by
  rintro (x | ⟨n, x⟩) (y | ⟨n', y⟩) h
  · simp only [RedirectOrEnvVar.map, RedirectOrEnvVar.Redirect.injEq] at h
    rw [hr h]
  · simp [RedirectOrEnvVar.map] at h
  · simp [RedirectOrEnvVar.map] at h
  · simp only [RedirectOrEnvVar.map, RedirectOrEnvVar.EnvVar.injEq] at h
    rw [h.1, Option.map_injective hw h.2]

include hw hr in
theorem inj_arg : Function.Injective (RedirectOrCmdWord.map w r) := by
  rintro (x | x) (y | y) h
  · simp only [RedirectOrCmdWord.map, RedirectOrCmdWord.Redirect.injEq] at h
    rw [hr h]
  · simp [RedirectOrCmdWord.map] at h
  · simp [RedirectOrCmdWord.map] at h
  · simp only [RedirectOrCmdWord.map, RedirectOrCmdWord.CmdWord.injEq] at h
    rw [hw h]

include hw in
theorem inj_andOr : Function.Injective (AndOr.map w) := by
  rintro (x | x) (y | y) h
  · simp only [AndOr.map, AndOr.And.injEq] at h
    rw [hw h]
  · simp [AndOr.map] at h
  · simp [AndOr.map] at h
  · simp only [AndOr.map, AndOr.Or.injEq] at h
    rw [hw h]

include hw in
theorem inj_snd {A : Type} : Function.Injective (fun p : A × W => (p.1, w p.2)) := by
  rintro ⟨a, b⟩ ⟨a', b'⟩ h
  simp only [Prod.mk.injEq] at h
  rw [h.1, hw h.2]

include hw in
theorem inj_redir : Function.Injective (RedirectKind.map w) := by
  intro x y h
  cases x <;> cases y <;> simp only [RedirectKind.map, reduceCtorEq, RedirectKind.Read.injEq,
    RedirectKind.Write.injEq, RedirectKind.ReadWrite.injEq, RedirectKind.Append.injEq, RedirectKind.Clobber.injEq,
    RedirectKind.Heredoc.injEq, RedirectKind.DupRead.injEq, RedirectKind.DupWrite.injEq] at h <;>
    rw [h.1, hw h.2]

end

/-- The map is injective on every type of values. -/
structure BMap.Inj {S T : BTypes} (F : BMap S T) : Prop where
  command : Function.Injective F.command
  commandList : Function.Injective F.commandList
  listable : Function.Injective F.listable
  pipeable : Function.Injective F.pipeable
  compound : Function.Injective F.compound
  word : Function.Injective F.word
  redirect : Function.Injective F.redirect

theorem present_inj (T : BTypes) : (present T).Inj where
  command _ _ h := Option.some.inj h
  commandList _ _ h := Option.some.inj h
  listable _ _ h := Option.some.inj h
  pipeable _ _ h := Option.some.inj h
  compound _ _ h := Option.some.inj h
  word _ _ h := Option.some.inj h
  redirect _ _ h := Option.some.inj h

theorem inj_call {S T : BTypes} {F : BMap S T} (hF : F.Inj) {c d : Call S} (h : c.map F = d.map F) : c = d := by
  cases c <;> cases d <;> simp only [Call.map, reduceCtorEq] at h
  · injection h with h1 h2 h3 h4; rw [h1, hF.commandList h2, h3, h4]
  · injection h with h1 h2
    rw [hF.listable h1, List.map_injective_iff.2 (inj_snd (inj_andOr hF.listable)) h2]
  · injection h with h1 h2; rw [h1, List.map_injective_iff.2 (inj_snd hF.pipeable) h2]
  · injection h with h1 h2
    rw [List.map_injective_iff.2 (inj_assign hF.word hF.redirect) h1,
      List.map_injective_iff.2 (inj_arg hF.word hF.redirect) h2]
  · injection h with h1 h2; rw [inj_group hF.command h1, List.map_injective_iff.2 hF.redirect h2]
  · injection h with h1 h2; rw [inj_group hF.command h1, List.map_injective_iff.2 hF.redirect h2]
  · injection h with h0 h1 h2; rw [h0, inj_pair hF.command h1, List.map_injective_iff.2 hF.redirect h2]
  · injection h with h1 h2; rw [inj_if hF.command h1, List.map_injective_iff.2 hF.redirect h2]
  · injection h with h1 h2; rw [inj_for hF.command hF.word h1, List.map_injective_iff.2 hF.redirect h2]
  · injection h with h1 h2; rw [inj_case hF.command hF.word h1, List.map_injective_iff.2 hF.redirect h2]
  · injection h with h1; rw [hF.compound h1]
  · injection h with h1 h2 h3; rw [h1, h2, hF.compound h3]
  · injection h with h1; rw [h1]
  · injection h with h1; rw [inj_word hF.command _ _ h1]
  · injection h with h1; rw [inj_redir hF.word h1]

theorem inj_ret {S T : BTypes} {F : BMap S T} (hF : F.Inj) {m : Method} {a b : m.Ret S}
    (h : m.mapRet F a = m.mapRet F b) : a = b := by
  cases m with
  | completeCommand => exact Option.map_injective hF.command h
  | andOrList => exact hF.commandList h
  | pipeline => exact hF.listable h
  | command | simpleCommand | functionDeclaration => exact hF.pipeable h
  | redirectList => exact List.map_injective_iff.2 hF.redirect h
  | redirect =>
    refine Option.map_injective (f := Sum.map F.redirect F.word) ?_ h
    rintro (x | x) (y | y) h
    · rw [hF.redirect (Sum.inl.inj h)]
    · cases h
    · cases h
    · rw [hF.word (Sum.inr.inj h)]
  | redirectHeredoc => exact hF.redirect h
  | word | wordPreserveTrailingWhitespace => exact Option.map_injective hF.word h
  | backtickedCommandSubstitution | parameter => exact hF.word h
  | doGroup | braceGroup | subshell | commandGroup => exact inj_group hF.command h
  | compoundCommand => exact hF.compound h
  | loopCommand =>
    have h1 := congrArg Prod.fst h
    have h2 := inj_pair hF.command (congrArg Prod.snd h)
    exact Prod.ext h1 h2
  | ifCommand => exact inj_if hF.command h
  | forCommand => exact inj_for hF.command hF.word h
  | caseCommand => exact inj_case hF.command hF.word h
  | maybeFunctionDeclaration => exact Option.map_injective hF.pipeable h
  | skipWhitespace | linebreak | newline | peekReservedToken | peekReservedWord | reservedToken | reservedWord
  | arithmeticSubstitution => exact h

end Conch
