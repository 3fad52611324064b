import Verif.AstMap
import Verif.PropsCompress
/-!
# Property C38: the default builders agree

`Core` has the type parameters and conversions of `CoreBuilder`. A `CoreHom` maps one instance to
another; then everything built by the first is mapped to what the second builds.
-/
namespace Conch
open Spec

/-! ## Compression commutes with maps -/

/-- The map on the result of a merge. -/
def CoalesceResult.map {α β : Type} (g : α → β) : CoalesceResult α → CoalesceResult β
  | .ok c => .ok (g c)
  | .error (l, r) => .error (g l, g r)

section
variable {C D : Type} (f : C → D)

theorem coalesceSimple_map (a b : SimpleWordKind C) :
    coalesceSimple (a.map f) (b.map f) = (coalesceSimple a b).map (SimpleWordKind.map f) := by
  cases a <;> cases b <;> simp [coalesceSimple, SimpleWordKind.map, CoalesceResult.map]

theorem mergeFrom_map {α β : Type} {g : α → β} {k : α → α → CoalesceResult α}
    {k' : β → β → CoalesceResult β}
    (h : ∀ a b, k' (g a) (g b) = (k a b).map g) (xs : List α) :
    ∀ x, mergeFrom k' (g x) (xs.map g) = (mergeFrom k x xs).map g := by
  induction xs with
  | nil => intro x; rfl
  | cons y ys ih =>
    intro x
    simp only [List.map_cons, mergeFrom, h]
    cases hk : k x y with
    | ok c => simp only [CoalesceResult.map, ih]
    | error p => simp only [CoalesceResult.map, ih, List.map_cons]

theorem merge_map {α β : Type} {g : α → β} {k : α → α → CoalesceResult α}
    {k' : β → β → CoalesceResult β}
    (h : ∀ a b, k' (g a) (g b) = (k a b).map g) (xs : List α) :
    merge k' (xs.map g) = (merge k xs).map g := by
  cases xs with
  | nil => rfl
  | cons x xs => exact mergeFrom_map h xs x

theorem collectSimple_map (v : List (SimpleWordKind C)) :
    Coalesce.collect coalesceSimple (v.map (SimpleWordKind.map f)) =
      (Coalesce.collect coalesceSimple v).map (SimpleWordKind.map f) := by
  rw [Coalesce.collect_eq, Coalesce.collect_eq]
  exact merge_map (coalesceSimple_map f) v

theorem coalesceWord_map (a b : WordKind C) :
    coalesceWord (a.map f) (b.map f) = (coalesceWord a b).map (WordKind.map f) := by
  rcases a with a | a | a <;> rcases b with b | b | b <;>
    simp only [coalesceWord, WordKind.map, CoalesceResult.map]
  · rw [coalesceSimple_map]
    cases coalesceSimple a b <;> rfl
  · rw [mapSimpleKinds_eq, mapSimpleKinds_eq, mapSimpleKinds_eq, ← List.map_append,
      collectSimple_map]

theorem collectWord_map (v : List (WordKind C)) :
    Coalesce.collect coalesceWord (v.map (WordKind.map f)) =
      (Coalesce.collect coalesceWord v).map (WordKind.map f) := by
  rw [Coalesce.collect_eq, Coalesce.collect_eq]
  exact merge_map (coalesceWord_map f) v

theorem compress_map (k : ComplexWordKind C) : compress (k.map f) = (compress k).map f := by
  match k with
  | .Single (.Simple s) => rfl
  | .Single (.SingleQuoted s) => rfl
  | .Single (.DoubleQuoted v) =>
    simp only [ComplexWordKind.map, WordKind.map, compress, mapSimpleKinds_eq, collectSimple_map]
  | .Concat v =>
    simp only [ComplexWordKind.map, compress, mapWordKinds_eq, collectWord_map]
    generalize Coalesce.collect coalesceWord v = z
    match z with
    | [] => rfl
    | [w] => rfl
    | x :: y :: ys => simp [ComplexWordKind.map, mapWordKinds_eq]

end

/-! ## The words that `CoreBuilder` builds -/

namespace Core
variable (K : Core)

/-- `map_simple`'s substitutions with all nested words built by `word`. -/
def substOf : ParameterSubstitutionKind (ComplexWordKind K.C) K.C →
      ParameterSubstitution (Parameter K.T) K.W K.C (Arithmetic K.T)
  | .Len p => .Len (mapParam K.ofString p)
  | .Command c => .Command c.commands
  | .Arith a => .Arith (a.map (mapArith K.ofString))
  | .Default c p w => .Default c (mapParam K.ofString p) (w.map K.word)
  | .Assign c p w => .Assign c (mapParam K.ofString p) (w.map K.word)
  | .Error c p w => .Error c (mapParam K.ofString p) (w.map K.word)
  | .Alternative c p w => .Alternative c (mapParam K.ofString p) (w.map K.word)
  | .RemoveSmallestSuffix p w => .RemoveSmallestSuffix (mapParam K.ofString p) (w.map K.word)
  | .RemoveLargestSuffix p w => .RemoveLargestSuffix (mapParam K.ofString p) (w.map K.word)
  | .RemoveSmallestPrefix p w => .RemoveSmallestPrefix (mapParam K.ofString p) (w.map K.word)
  | .RemoveLargestPrefix p w => .RemoveLargestPrefix (mapParam K.ofString p) (w.map K.word)

/-- The simple word for a fragment. -/
def simpleOf : SimpleWordKind K.C → K.Simple
  | .Literal s => .Literal (K.ofString s)
  | .Escaped s => .Escaped (K.ofString s)
  | .Param p => .Param (mapParam K.ofString p)
  | .Star => .Star
  | .Question => .Question
  | .SquareOpen => .SquareOpen
  | .SquareClose => .SquareClose
  | .Tilde => .Tilde
  | .Colon => .Colon
  | .CommandSubst c => .Subst (.Command c.commands)
  | .Subst s => .Subst (K.substOf s)

/-- The word for a part. -/
def partOf : WordKind K.C → Word K.T K.Simple
  | .Simple s => .Simple (K.simpleOf s)
  | .SingleQuoted s => .SingleQuoted (K.ofString s)
  | .DoubleQuoted v => .DoubleQuoted (v.map K.simpleOf)

/-- The complex word for the parts, without compression. -/
def complexOf : ComplexWordKind K.C → ShellWord K.T K.W K.C
  | .Single s => .Single (K.partOf s)
  | .Concat ws => .Concat (ws.map K.partOf)

section
variable {K} {n : Nat} {rec : (k : ComplexWordKind K.C) → k.depth ≤ n → K.W}

theorem mapOpt_eq (h : ∀ k hk, rec k hk = K.word k) (w hw) : K.mapOpt rec w hw = w.map K.word := by
  cases w with
  | none => rfl
  | some w => exact congrArg some (h w hw)

theorem mapSimple_eq (h : ∀ k hk, rec k hk = K.word k) (s hs) :
    K.mapSimple rec s hs = K.simpleOf s := by
  cases s with
  | Subst s =>
    cases s <;> first
      | rfl
      | (simp only [mapSimple, mapSubst, simpleOf, substOf]; rw [mapOpt_eq h _ hs])
  | _ => rfl

theorem mapWord_eq (h : ∀ k hk, rec k hk = K.word k) (s hs) :
    K.mapWord rec s hs = K.partOf s := by
  cases s with
  | Simple s => exact congrArg Word.Simple (mapSimple_eq h s hs)
  | SingleQuoted => rfl
  | DoubleQuoted v =>
    simp only [mapWord, partOf, Word.DoubleQuoted.injEq]
    rw [List.pmap_congr_left (q := fun a => a.depth ≤ n) (g := fun a _ => K.simpleOf a) _
      (fun a _ h1 _ => mapSimple_eq h a h1) , List.pmap_eq_map]
    exact depthSimples_le.1 hs

theorem mapComplex_eq (h : ∀ k hk, rec k hk = K.word k) (s hs) :
    K.mapComplex rec s hs = K.complexOf s := by
  cases s with
  | Single s => simp [mapComplex, complexOf, mapWord_eq h]
  | Concat v =>
    simp only [mapComplex, complexOf, ComplexWord.Concat.injEq]
    rw [List.pmap_congr_left (q := fun a => a.depth ≤ n) (g := fun a _ => K.partOf a) _
      (fun a _ h1 _ => mapWord_eq h a h1), List.pmap_eq_map]
    exact depthWords_le.1 (by simp only [ComplexWordKind.depth] at hs; omega)

end

theorem wordD_eq (n : Nat) : ∀ k h, K.wordD n k h = K.word k ∧
    K.word k = K.ofWord (K.complexOf (compress k)) := by
  induction n using Nat.strongRecOn with
  | ind n ih =>
    intro k h
    have key : ∀ m k' h', m < n + 1 → (∀ j < m, ∀ k h, K.wordD j k h = K.word k) →
        K.wordD m k' h' = K.ofWord (K.complexOf (compress k')) := by
      intro m k' h' hm hj
      cases m with
      | zero => exact absurd h' (by cases k' <;> simp [ComplexWordKind.depth])
      | succ m =>
        rw [wordD, mapComplex_eq (fun k h => hj m (by omega) k h)]
    have h1 := key n k h (by omega) (fun j hj k h => (ih j hj k h).1)
    have h2 := key k.depth k (Nat.le_refl _) (by omega) (fun j hj k h => (ih j (by omega) k h).1)
    exact ⟨h1.trans h2.symm, h2⟩

/-- C32: the word a default builder builds consists of the compressed parts; the words nested in
parameter substitutions are built in the same way. -/
theorem _root_.Conch.C32_default_builder_compresses (k : ComplexWordKind K.C) :
    K.word k = K.ofWord (K.complexOf (compress k)) := (K.wordD_eq _ k (Nat.le_refl _)).2

end Core

/-! ## Maps between instances -/

mutual
theorem mapArith_map {T U V : Type} (g : Str → T) (h : T → U) : ∀ a : DefaultArithmetic,
    (mapArith g a).map h = mapArith (fun s => h (g s)) a
  | .Var _ | .Literal _ | .PostIncr _ | .PostDecr _ | .PreIncr _ | .PreDecr _ => rfl
  | .UnaryPlus a | .UnaryMinus a | .LogicalNot a | .BitwiseNot a | .Assign _ a => by
    simp only [mapArith, Arithmetic.map, mapArith_map (V := V) g h a]
  | .Pow a b | .Mult a b | .Div a b | .Modulo a b | .Add a b | .Sub a b | .ShiftLeft a b
  | .ShiftRight a b | .Less a b | .LessEq a b | .Great a b | .GreatEq a b | .Eq a b | .NotEq a b
  | .BitwiseAnd a b | .BitwiseXor a b | .BitwiseOr a b | .LogicalAnd a b | .LogicalOr a b => by
    simp only [mapArith, Arithmetic.map, mapArith_map (V := V) g h a, mapArith_map (V := V) g h b]
  | .Ternary a b c => by
    simp only [mapArith, Arithmetic.map, mapArith_map (V := V) g h a, mapArith_map (V := V) g h b,
      mapArith_map (V := V) g h c]
  | .Sequence as => by
    simp only [mapArith, Arithmetic.map, mapAriths_map (V := V) g h as]
theorem mapAriths_map {T U V : Type} (g : Str → T) (h : T → U) : ∀ as : List DefaultArithmetic,
    Arithmetic.mapList h (mapAriths g as) = mapAriths (fun s => h (g s)) as
  | [] => rfl
  | a :: as => by
    simp only [mapAriths, Arithmetic.mapList, mapArith_map (V := V) g h a, mapAriths_map (V := V) g h as]
end

theorem mapParam_map {T U : Type} (g : Str → T) (h : T → U) (p : DefaultParameter) :
    (mapParam g p).map h = mapParam (fun s => h (g s)) p := by
  cases p <;> rfl

/-- Maps between the type parameters of two instances of `CoreBuilder` that respect the
conversions. -/
structure CoreHom (K L : Core) where
  t : K.T → L.T
  w : K.W → L.W
  c : K.C → L.C
  f : K.F → L.F
  ofString : ∀ s, t (K.ofString s) = L.ofString s
  ofWord : ∀ x, w (K.ofWord x) = L.ofWord (ShellWord.map t w c x)
  ofCommand : ∀ x, c (K.ofCommand x) = L.ofCommand (x.map (BuilderList.map t w c f))
  ofCompound : ∀ x, f (K.ofCompound x) = L.ofCompound (ShellCompoundCommand.map t w c x)

namespace CoreHom
variable {K L : Core} (H : CoreHom K L)

theorem ofString' : (fun s => H.t (K.ofString s)) = L.ofString := funext H.ofString

/-- The maps on the types of the builders. -/
@[reducible] def bmap : BMap K.types L.types where
  command := H.c
  commandList := BuilderList.map H.t H.w H.c H.f
  listable := ListableCommand.map (BuilderPipeableCommand.map H.t H.w H.c H.f)
  pipeable := BuilderPipeableCommand.map H.t H.w H.c H.f
  compound := ShellCompoundCommand.map H.t H.w H.c
  word := H.w
  redirect := Redirect.map H.w
  error := id

mutual
theorem word_map : ∀ (n : Nat) (k : ComplexWordKind K.C), k.depth ≤ n →
    L.word (k.map H.c) = H.w (K.word k)
  | 0, k, h => absurd h (by cases k <;> simp [ComplexWordKind.depth])
  | n + 1, k, h => by
    rw [C32_default_builder_compresses, C32_default_builder_compresses, H.ofWord, compress_map]
    congr 1
    have hd := Nat.le_trans (compress_depth k) h
    generalize compress k = k' at hd
    cases k' with
    | Single s =>
      simp only [ComplexWordKind.depth] at hd
      simp only [ComplexWordKind.map, Core.complexOf, ShellWord.map, ComplexWord.map]
      rw [part_map n s (by omega)]
    | Concat ws =>
      simp only [ComplexWordKind.depth] at hd
      simp only [ComplexWordKind.map, Core.complexOf, ShellWord.map, ComplexWord.map,
        mapWordKinds_eq, List.map_map, ComplexWord.Concat.injEq]
      refine List.map_congr_left fun x hx => ?_
      exact part_map n x (depthWords_le.1 (by omega) x hx)
  termination_by n => (n, 0)
theorem part_map (n : Nat) (k : WordKind K.C) (h : k.depth ≤ n) :
    L.partOf (k.map H.c) = (K.partOf k).map H.t (SimpleWord.map H.t (Parameter.map H.t)
      (ParameterSubstitution.map (Parameter.map H.t) H.w H.c (Arithmetic.map H.t))) := by
  cases k with
  | Simple s =>
    simp only [WordKind.depth] at h
    simp only [WordKind.map, Core.partOf, Word.map]
    rw [simple_map n s h]
  | SingleQuoted s => simp only [WordKind.map, Core.partOf, Word.map, H.ofString]
  | DoubleQuoted v =>
    simp only [WordKind.depth] at h
    simp only [WordKind.map, Core.partOf, Word.map, mapSimpleKinds_eq, List.map_map,
      Word.DoubleQuoted.injEq]
    refine List.map_congr_left fun x hx => ?_
    exact simple_map n x (depthSimples_le.1 h x hx)
  termination_by (n, 2)
theorem simple_map (n : Nat) (k : SimpleWordKind K.C) (h : k.depth ≤ n) :
    L.simpleOf (k.map H.c) = (K.simpleOf k).map H.t (Parameter.map H.t)
      (ParameterSubstitution.map (Parameter.map H.t) H.w H.c (Arithmetic.map H.t)) := by
  have hp : ∀ p, mapParam L.ofString p = (mapParam K.ofString p).map H.t := fun p => by
    rw [mapParam_map, H.ofString']
  have ho : ∀ w : Option (ComplexWordKind K.C), depthOpt w ≤ n →
      (mapOptWord H.c w).map L.word = (w.map K.word).map H.w := by
    intro w hw
    cases w with
    | none => rfl
    | some w =>
      simp only [depthOpt] at hw
      simp only [mapOptWord, Option.map_some, word_map n w hw]
  cases k with
  | Subst s =>
    simp only [SimpleWordKind.depth] at h
    cases s with
    | Command g => simp only [SimpleWordKind.map, mapSubstKind, Core.simpleOf, Core.substOf,
        SimpleWord.map, ParameterSubstitution.map, CommandGroup.map]
    | Len p => simp only [SimpleWordKind.map, mapSubstKind, Core.simpleOf, Core.substOf,
        SimpleWord.map, ParameterSubstitution.map, hp]
    | Arith a =>
      simp only [SimpleWordKind.map, mapSubstKind, Core.simpleOf, Core.substOf,
        SimpleWord.map, ParameterSubstitution.map, Option.map_map]
      congr 3
      funext a
      simp only [Function.comp, mapArith_map (V := Unit), H.ofString']
    | _ =>
      simp only [depthSubst] at h
      simp only [SimpleWordKind.map, mapSubstKind, Core.simpleOf, Core.substOf,
        SimpleWord.map, ParameterSubstitution.map, hp, ho _ h]
  | CommandSubst g => simp only [SimpleWordKind.map, Core.simpleOf, SimpleWord.map,
      ParameterSubstitution.map, CommandGroup.map]
  | Literal s => simp only [SimpleWordKind.map, Core.simpleOf, SimpleWord.map, H.ofString]
  | Escaped s => simp only [SimpleWordKind.map, Core.simpleOf, SimpleWord.map, H.ofString]
  | Param p => simp only [SimpleWordKind.map, Core.simpleOf, SimpleWord.map, hp]
  | _ => rfl
  termination_by (n, 1)
end

theorem call_map (c : Call K.types) :
    BOut.Rel False False id (c.mapRet H.bmap) (fun _ _ => True) (K.call c, ()) (L.call (c.map H.bmap), ()) := by
  cases c with
  | completeCommand pre l sep cm =>
    cases sep <;> first
      | exact ⟨(H.ofCommand (.List l)).symm, trivial⟩
      | exact ⟨(H.ofCommand (.Job l)).symm, trivial⟩
  | andOrList x rest =>
    refine ⟨?_, trivial⟩
    show _ = BuilderList.map H.t H.w H.c H.f _
    simp [AndOrList.map, Function.comp_def]
  | pipeline b cmds =>
    match b, cmds with
    | _, [] => exact .inr ⟨(), rfl, trivial⟩
    | false, [c] => exact ⟨rfl, trivial⟩
    | true, [c] => exact ⟨rfl, trivial⟩
    | b, c :: d :: cs =>
      cases b <;>
      · refine ⟨?_, trivial⟩
        refine Eq.trans ?_ (show H.bmap.listable (.Pipe _ ((c :: d :: cs).map (·.2))) = _ from rfl)
        simp [ListableCommand.map, Function.comp_def]
        rfl
  | simpleCommand vs as =>
    refine ⟨?_, trivial⟩
    refine Eq.trans ?_ (show H.bmap.pipeable (.Simple ⟨vs.map K.mapEnvVar, as⟩) = _ from rfl)
    simp only [List.map_map, BuilderPipeableCommand.map, PipeableCommand.map,
      SimpleCommand.map]
    refine congrArg (fun x => PipeableCommand.Simple (SimpleCommand.mk x _)) ?_
    refine List.map_congr_left fun x _ => ?_
    cases x <;> simp [Core.mapEnvVar, RedirectOrEnvVar.map, RedirectOrEnvVar.mapAll, H.ofString]
  | braceGroup g io => exact ⟨rfl, trivial⟩
  | subshell g io => exact ⟨rfl, trivial⟩
  | loopCommand k p io => cases k <;> exact ⟨rfl, trivial⟩
  | ifCommand f io =>
    refine ⟨?_, trivial⟩
    show _ = ShellCompoundCommand.map H.t H.w H.c _
    simp only [ShellCompoundCommand.map, CompoundCommand.map, CompoundCommandKind.map,
      IfFragments.map, List.map_map, Option.map_map]
    rfl
  | forCommand f io =>
    refine ⟨?_, trivial⟩
    show _ = ShellCompoundCommand.map H.t H.w H.c _
    simp only [ShellCompoundCommand.map, CompoundCommand.map, CompoundCommandKind.map,
      ForFragments.map, Option.map_map, H.ofString]
    rfl
  | caseCommand f io =>
    refine ⟨?_, trivial⟩
    show _ = ShellCompoundCommand.map H.t H.w H.c _
    simp only [ShellCompoundCommand.map, CompoundCommand.map, CompoundCommandKind.map,
      CaseFragments.map, List.map_map]
    rfl
  | compoundCommandIntoPipeable c => exact ⟨rfl, trivial⟩
  | functionDeclaration n cs c =>
    refine ⟨?_, trivial⟩
    refine Eq.trans ?_ (show H.bmap.pipeable (.FunctionDef (K.ofString n) (K.ofCompound c)) = _
      from rfl)
    simp only [BuilderPipeableCommand.map, PipeableCommand.map, H.ofString, H.ofCompound]
    rfl
  | comments cs => exact ⟨rfl, trivial⟩
  | word k => exact ⟨H.word_map _ k (Nat.le_refl _), trivial⟩
  | redirect k => cases k <;> exact ⟨rfl, trivial⟩

/-- The homomorphism of builders. -/
@[reducible] def hom : Hom K.builder L.builder where
  toBMap := H.bmap
  st _ _ := True
  esc := False
  call c _ _ _ := H.call_map c

end CoreHom

/-- The same outcome with the result changed by `g`. -/
def Res.mapOk {ε α β : Type} (g : α → β) : Res ε α → Res ε β
  | .ok a => .ok (g a)
  | .err e => .err e
  | .panic n => .panic n
  | .fuel => .fuel

/-- C38: building with one instance of `CoreBuilder` and mapping the result is building with the
other; errors and the place where parsing stops are the same. -/
theorem C38_core_builders_agree {K L : Core} (H : CoreHom K L) (m : Method) (it : CIter) :
    let r := m.run (⟨it, ()⟩ : PSt CIter K.builder)
    let r' := m.run (⟨it, ()⟩ : PSt CIter L.builder)
    r'.2.it = r.2.it ∧
    r'.1 = r.1.mapOk (m.mapRet H.bmap) := by
  intro r r'
  have h := rel_method (StreamSim.refl CIter) H.hom m
  unfold Rel at h
  have h := h ⟨it, ()⟩ ⟨it, ()⟩ ⟨rfl, trivial⟩
  change Out _ _ _ r r' at h
  generalize r = z at h
  generalize r' = z' at h
  obtain ⟨z, s1⟩ := z
  obtain ⟨z', s1'⟩ := z'
  cases z with
  | panic n =>
    rcases h with ⟨h, -⟩ | ⟨s2, h1, h2⟩
    · exact h.elim
    · cases h1; exact ⟨h2.1.symm, rfl⟩
  | ok a =>
    cases z' <;> first | exact h.elim | skip
    obtain ⟨h1, h2⟩ := h
    exact ⟨h2.1.symm, by rw [h1]; rfl⟩
  | err e =>
    rcases h with ⟨h, -⟩ | ⟨s2, h1, h2⟩
    · exact h.elim
    · cases h1; exact ⟨h2.1.symm, by cases e <;> rfl⟩
  | fuel =>
    rcases h with h1 | ⟨s2, h1, h2⟩
    · exact h1.elim
    · cases h1; exact ⟨h2.1.symm, rfl⟩

/-! ## The default trees -/

namespace TLMap
variable {T U : Type} (g : T → U)

theorem commands_eq : ∀ l, commands g l = l.map (TopLevelCommand.map g)
  | [] => by rw [commands]; rfl
  | x :: xs => by rw [commands, commands_eq xs]; rfl
theorem optCommands_eq : ∀ l, optCommands g l = l.map (List.map (TopLevelCommand.map g))
  | none => by rw [optCommands]; rfl
  | some xs => by rw [optCommands, commands_eq]; rfl
theorem topWords_eq : ∀ l, topWords g l = l.map (TopLevelWord.map g)
  | [] => by rw [topWords]; rfl
  | x :: xs => by rw [topWords, topWords_eq xs]; rfl
theorem optTopWords_eq : ∀ l, optTopWords g l = l.map (List.map (TopLevelWord.map g))
  | none => by rw [optTopWords]; rfl
  | some xs => by rw [optTopWords, topWords_eq]; rfl
theorem optWord_eq : ∀ l, optWord g l = l.map (TopLevelWord.map g)
  | none => by rw [optWord]; rfl
  | some xs => by rw [optWord]; rfl
theorem subst_eq (x) : subst g x = x.map (Parameter.map g) (TopLevelWord.map g)
    (TopLevelCommand.map g) (Arithmetic.map g) := by
  cases x <;> simp only [subst, ParameterSubstitution.map, commands_eq, optWord_eq]
theorem simple_eq (x) : simple g x = x.map g (Parameter.map g)
    (ParameterSubstitution.map (Parameter.map g) (TopLevelWord.map g)
    (TopLevelCommand.map g) (Arithmetic.map g)) := by
  cases x <;> simp only [simple, SimpleWord.map, subst_eq]
theorem simples_eq : ∀ l, simples g l = l.map (simple g)
  | [] => by rw [simples]; rfl
  | x :: xs => by rw [simples, simples_eq xs]; rfl
theorem word_eq (x) : word g x = x.map g (simple g) := by
  cases x <;> simp only [word, Word.map, simples_eq]
theorem words_eq : ∀ l, words g l = l.map (word g)
  | [] => by rw [words]; rfl
  | x :: xs => by rw [words, words_eq xs]; rfl
theorem complex_eq (x) :
    complex g x = ShellWord.map g (TopLevelWord.map g) (TopLevelCommand.map g) x := by
  have h1 : simple g = _ := funext (simple_eq g)
  have h2 : word g = _ := funext (word_eq g)
  rw [h1] at h2
  cases x <;> simp only [complex, ShellWord.map, ComplexWord.map, words_eq, h2]
theorem redirect_eq (x) : redirect g x = x.map (TopLevelWord.map g) := by
  cases x <;> simp only [redirect, Redirect.map]
theorem redirects_eq : ∀ l, redirects g l = l.map (redirect g)
  | [] => by rw [redirects]; rfl
  | x :: xs => by rw [redirects, redirects_eq xs]; rfl
theorem guardBody_eq (x) : guardBody g x = x.map (TopLevelCommand.map g) := by
  cases x; simp only [guardBody, GuardBodyPair.map, commands_eq]
theorem guardBodies_eq : ∀ l, guardBodies g l = l.map (guardBody g)
  | [] => by rw [guardBodies]; rfl
  | x :: xs => by rw [guardBodies, guardBodies_eq xs]; rfl
theorem arm_eq (x) : arm g x = x.map (TopLevelWord.map g) (TopLevelCommand.map g) := by
  cases x; simp only [arm, PatternBodyPair.map, commands_eq, topWords_eq]
theorem arms_eq : ∀ l, arms g l = l.map (arm g)
  | [] => by rw [arms]; rfl
  | x :: xs => by rw [arms, arms_eq xs]; rfl
theorem kind_eq (x) :
    kind g x = x.map g (TopLevelWord.map g) (TopLevelCommand.map g) := by
  have h1 : guardBody g = _ := funext (guardBody_eq g)
  have h2 : arm g = _ := funext (arm_eq g)
  cases x <;> simp only [kind, CompoundCommandKind.map, commands_eq, guardBody_eq, guardBodies_eq,
    arms_eq, optCommands_eq, optTopWords_eq, h1, h2]
theorem compound_eq (x) :
    compound g x = ShellCompoundCommand.map g (TopLevelWord.map g) (TopLevelCommand.map g) x := by
  have h1 : redirect g = _ := funext (redirect_eq g)
  cases x; simp only [compound, ShellCompoundCommand.map, CompoundCommand.map, kind_eq,
    redirects_eq, h1]
theorem arg_eq (x) : arg g x = x.map (TopLevelWord.map g) (redirect g) := by
  cases x <;> simp only [arg, RedirectOrCmdWord.map]
theorem args_eq : ∀ l, args g l = l.map (arg g)
  | [] => by rw [args]; rfl
  | x :: xs => by rw [args, args_eq xs]; rfl
theorem var_eq (x) : var g x = x.mapAll (redirect g) g (TopLevelWord.map g) := by
  cases x <;> simp only [var, RedirectOrEnvVar.mapAll, optWord_eq]
theorem vars_eq : ∀ l, vars g l = l.map (var g)
  | [] => by rw [vars]; rfl
  | x :: xs => by rw [vars, vars_eq xs]; rfl
theorem simpleCommand_eq (x) :
    simpleCommand g x = x.map g (TopLevelWord.map g) (Redirect.map (TopLevelWord.map g)) := by
  have h1 : redirect g = _ := funext (redirect_eq g)
  have h2 : arg g = _ := funext (arg_eq g)
  have h3 : var g = _ := funext (var_eq g)
  rw [h1] at h2 h3
  cases x; simp only [simpleCommand, SimpleCommand.map, args_eq, vars_eq, h2, h3]
theorem pipeable_eq (x) : pipeable g x = BuilderPipeableCommand.map g (TopLevelWord.map g)
    (TopLevelCommand.map g) (compound g) x := by
  cases x <;> simp only [pipeable, BuilderPipeableCommand.map, PipeableCommand.map,
    simpleCommand_eq, compound_eq]
theorem pipeables_eq : ∀ l, pipeables g l = l.map (pipeable g)
  | [] => by rw [pipeables]; rfl
  | x :: xs => by rw [pipeables, pipeables_eq xs]; rfl
theorem listable_eq (x) : listable g x = x.map (pipeable g) := by
  cases x <;> simp only [listable, ListableCommand.map, pipeables_eq]
theorem andOr_eq (x) : andOr g x = x.map (listable g) := by
  cases x <;> simp only [andOr, AndOr.map]
theorem andOrs_eq : ∀ l, andOrs g l = l.map (andOr g)
  | [] => by rw [andOrs]; rfl
  | x :: xs => by rw [andOrs, andOrs_eq xs]; rfl
theorem list_eq (x) : list g x = BuilderList.map g (TopLevelWord.map g)
    (TopLevelCommand.map g) (compound g) x := by
  have h1 : pipeable g = _ := funext (pipeable_eq g)
  have h2 : listable g = _ := funext (listable_eq g)
  have h3 : andOr g = _ := funext (andOr_eq g)
  rw [h2] at h3
  cases x; simp only [list, BuilderList.map, AndOrList.map, andOrs_eq, h1, h2, h3]
theorem command_eq (x) : command g x = x.map (BuilderList.map g (TopLevelWord.map g)
    (TopLevelCommand.map g) (compound g)) := by
  cases x <;> simp only [command, Command.map, list_eq]

end TLMap

/-- `DefaultBuilder<T>` (`StringBuilder`, `RcBuilder`, `ArcBuilder`), default_builder.rs:195-228:
the same trees with strings of the type `T`, converted with `From<String>`. -/
@[reducible] def defaultCore (T : Type) (ofString : Str → T) : Core where
  T := T
  W := TopLevelWord T
  C := TopLevelCommand T
  F := ShellCompoundCommand T (TopLevelWord T) (TopLevelCommand T)
  ofString := ofString
  ofWord := .mk
  ofCommand := .mk
  ofCompound := id

/-- Converting the strings maps the trees of one default builder to those of another. -/
@[reducible] def defaultHom {T U : Type} (f : Str → T) (g : T → U) :
    CoreHom (defaultCore T f) (defaultCore U (fun s => g (f s))) where
  t := g
  w := TopLevelWord.map g
  c := TopLevelCommand.map g
  f := TLMap.compound g
  ofString _ := rfl
  ofWord x := by rw [TopLevelWord.map, TLMap.complex_eq]
  ofCommand x := by rw [TopLevelCommand.map, TLMap.command_eq]
  ofCompound x := TLMap.compound_eq g x

/-- C38: parsing with `DefaultBuilder<T>` gives the tree that `StringBuilder` gives with every
string converted; errors and the place where parsing stops are the same. -/
theorem C38_string_types_agree {T : Type} (f : Str → T) (it : CIter) :
    let r := Method.completeCommand.run (⟨it, ()⟩ : PSt CIter DefaultBuilder)
    let r' := Method.completeCommand.run (⟨it, ()⟩ : PSt CIter (defaultCore T f).builder)
    r'.2.it = r.2.it ∧
    r'.1 = r.1.mapOk (Option.map (TopLevelCommand.map f)) :=
  C38_core_builders_agree (defaultHom id f) .completeCommand it

/-- The lengths of the literal arguments of a simple command, for the example. -/
def litArgs {T : Type} : Option (TopLevelCommand T) → List T
  | some (.mk (.List ⟨.Single (.Simple s), []⟩)) => s.redirectsOrCmdWords.filterMap fun
    | .CmdWord (.mk (.Single (.Simple (.Literal t)))) => some t
    | .CmdWord (.mk (.Single (.SingleQuoted t))) => some t
    | _ => none
  | _ => []

/-- Non-trivial: with strings converted to their lengths, the words are parsed to lengths. -/
example : (match (Method.completeCommand.run
      (⟨(parserOf "foo 'a b' $x bar# >f; x").it, ()⟩ :
        PSt CIter (defaultCore Nat List.length).builder)).1 with
    | .ok c => litArgs c
    | _ => []) = [3, 3, 4] := by decide +kernel

end Conch
