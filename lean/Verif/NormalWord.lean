import Verif.NormalForm
import Verif.PropsCompress
/-!
# Normal form of words (C48)

What the parser hands to `Builder::word` (`KWord`), and what the default builder makes of it.
-/
namespace Conch
open Spec

mutual

/-- A fragment as it is handed to the builder. -/
inductive KSimple : Bool → SimpleWordKind TCommand → Prop
  | literal {q s} : s ≠ [] → KSimple q (.Literal s)
  | escaped {s} : s ≠ [] → KSimple false (.Escaped s)
  | escapedQuoted {s} : s ∈ escapable → KSimple true (.Escaped s)
  | param {q p} : NfParam p → KSimple q (.Param p)
  | subst {q s} : KSubst s → KSimple q (.Subst s)
  | commandSubst {q g} : (∀ c ∈ g.commands, NfCommand c) → KSimple q (.CommandSubst g)
  | pattern {s} : s ∈ [SimpleWordKind.Star, .Question, .SquareOpen, .SquareClose, .Tilde, .Colon] → KSimple false s

/-- A substitution as it is handed to the builder. -/
inductive KSubst : ParameterSubstitutionKind (ComplexWordKind TCommand) TCommand → Prop
  | command {g} : (∀ c ∈ g.commands, NfCommand c) → KSubst (.Command g)
  | len {p} : NfParam p → KSubst (.Len p)
  | arith {a} : KSubst (.Arith a)
  | default {c p w} : NfParam p → (∀ x ∈ w, KWord x) → KSubst (.Default c p w)
  | assign {c p w} : NfParam p → (∀ x ∈ w, KWord x) → KSubst (.Assign c p w)
  | error {c p w} : NfParam p → (∀ x ∈ w, KWord x) → KSubst (.Error c p w)
  | alternative {c p w} : NfParam p → (∀ x ∈ w, KWord x) → KSubst (.Alternative c p w)
  | smallestSuffix {p w} : NfParam p → (∀ x ∈ w, KWord x) → KSubst (.RemoveSmallestSuffix p w)
  | largestSuffix {p w} : NfParam p → (∀ x ∈ w, KWord x) → KSubst (.RemoveLargestSuffix p w)
  | smallestPrefix {p w} : NfParam p → (∀ x ∈ w, KWord x) → KSubst (.RemoveSmallestPrefix p w)
  | largestPrefix {p w} : NfParam p → (∀ x ∈ w, KWord x) → KSubst (.RemoveLargestPrefix p w)

/-- A part of a word as it is handed to the builder. -/
inductive KPart : WordKind TCommand → Prop
  | simple {s} : KSimple false s → KPart (.Simple s)
  | double {ss} : (∀ s ∈ ss, KSimple true s) → KPart (.DoubleQuoted ss)
  | single {s} : KPart (.SingleQuoted s)

/-- A word as it is handed to the builder. -/
inductive KWord : ComplexWordKind TCommand → Prop
  | single {w} : KPart w → KWord (.Single w)
  | concat {ws} : 2 ≤ ws.length → (∀ w ∈ ws, KPart w) → KWord (.Concat ws)

end

/-- A body of a here-document as it is handed to the builder. -/
inductive KBody : ComplexWordKind TCommand → Prop
  | text {s} : KBody (.Single (.Simple (.Literal s)))
  | single {s} : KSimple true s → KBody (.Single (.Simple s))
  | concat {ss : List (SimpleWordKind TCommand)} : 2 ≤ ss.length → (∀ s ∈ ss, KSimple true s) →
      KBody (.Concat (ss.map .Simple))

/-! ## Compression -/

theorem collectSimple_k {q : Bool} {v : List (SimpleWordKind TCommand)} (h : ∀ s ∈ v, KSimple q s) :
    ∀ s ∈ Coalesce.collect coalesceSimple v, KSimple q s := by
  rw [Coalesce.collect_eq]
  refine merge_forall coalesceSimple _ ?_ ?_ v h
  · intro a b c hc ha hb
    unfold coalesceSimple at hc
    split at hc <;> cases hc
    cases ha with
    | literal h => exact .literal (by simp [h])
    | pattern h => simp at h
  · intro a b l r hc ha hb
    unfold coalesceSimple at hc
    split at hc <;> cases hc
    exact ⟨ha, hb⟩

theorem collectWord_k {v : List (WordKind TCommand)} (h : ∀ s ∈ v, KPart s) :
    ∀ s ∈ Coalesce.collect coalesceWord v, KPart s := by
  rw [Coalesce.collect_eq]
  refine merge_forall coalesceWord _ ?_ ?_ v h
  · intro a b c hc ha hb
    rcases coalesceWord_ok hc with ⟨s, t, rfl, rfl, rfl⟩ | ⟨s, t, rfl, rfl, rfl⟩ | ⟨s, t, rfl, rfl, rfl⟩
    · cases ha with
      | simple ha =>
        cases ha with
        | literal h => exact .simple (.literal (by simp [h]))
        | pattern h => simp at h
    · exact .single
    · cases ha with
      | double ha =>
        cases hb with
        | double hb =>
          refine .double (collectSimple_k fun x hx => ?_)
          rcases List.mem_append.1 hx with hx | hx
          · exact ha x hx
          · exact hb x hx
  · intro a b l r hc ha hb
    obtain ⟨rfl, rfl, -⟩ := coalesceWord_err hc
    exact ⟨ha, hb⟩

theorem collectWord_ne {v : List (WordKind TCommand)} (h : v ≠ []) : Coalesce.collect coalesceWord v ≠ [] := by
  rw [Coalesce.collect_eq]
  have key : ∀ (ys : List (WordKind TCommand)) x, mergeFrom coalesceWord x ys ≠ [] := by
    intro ys
    induction ys with
    | nil => intro x; simp [mergeFrom]
    | cons y ys ih =>
      intro x
      unfold mergeFrom
      split
      · exact ih _
      · simp
  cases v with
  | nil => exact absurd rfl h
  | cons x xs => exact key xs x

theorem compress_k {k : ComplexWordKind TCommand} (h : KWord k) : KWord (compress k) := by
  cases h with
  | @single w h =>
    unfold compress
    split
    · rename_i v e
      cases e
      cases h with
      | double h => exact .single (.double (collectSimple_k h))
    · rename_i e
      cases e
      exact .single h
    · rename_i e; cases e
  | @concat ws h1 h2 =>
    unfold compress
    simp only
    have h3 := collectWord_k h2
    have h4 := collectWord_ne (v := ws) (by rintro rfl; simp at h1)
    split
    · rename_i w e
      rw [e] at h3
      exact .single (h3 w (by simp))
    · rename_i l e
      refine .concat ?_ h3
      generalize Coalesce.collect coalesceWord ws = l at *
      match l with
      | [] => exact absurd rfl h4
      | [w] => exact absurd rfl (e w)
      | _ :: _ :: _ => simp

theorem KWord.ok {k : ComplexWordKind TCommand} (h : KWord k) : WordOk k := by
  cases h with
  | single => exact trivial
  | concat h _ => exact h

theorem compress_double {k : ComplexWordKind TCommand} (h : KWord k) {ss} (e : compress k = .Single (.DoubleQuoted ss)) :
    ss.IsChain fun a b => ¬ MergeableSimple a b := by
  have := C32_idempotent k h.ok
  rw [e] at this
  simp only [compress, ComplexWordKind.Single.injEq, WordKind.DoubleQuoted.injEq] at this
  rw [← this]
  exact collectSimple_chain ss

/-! ## What the builder makes of it -/

abbrev SC : Core := stringCore

variable {n : Nat}

theorem mapParam_same (p : DefaultParameter) : mapParam (T := Str) id p = p := by cases p <;> rfl

theorem mapOpt_nf {rec : (k : ComplexWordKind TCommand) → k.depth ≤ n → TWord}
    (hr : ∀ k h, KWord k → NfWord (rec k h)) {w : Option (ComplexWordKind TCommand)} (h : ∀ x ∈ w, KWord x) (hd) :
    ∀ x ∈ stringCore.mapOpt rec w hd, NfWord x := by
  cases w with
  | none => simp [Core.mapOpt]
  | some w => simp only [Core.mapOpt, Option.mem_def, Option.some.injEq]; rintro _ rfl; exact hr _ _ (h w rfl)

theorem mapSubst_nf {rec : (k : ComplexWordKind TCommand) → k.depth ≤ n → TWord}
    (hr : ∀ k h, KWord k → NfWord (rec k h)) {s} (h : KSubst s) (hd) : NfSubst (stringCore.mapSubst rec s hd) := by
  cases h with
  | command h => exact .command h
  | len h => simp only [Core.mapSubst, mapParam_same]; exact .len h
  | arith => exact .arith
  | default h1 h2 => simp only [Core.mapSubst, mapParam_same]; exact .default h1 (mapOpt_nf hr h2 _)
  | assign h1 h2 => simp only [Core.mapSubst, mapParam_same]; exact .assign h1 (mapOpt_nf hr h2 _)
  | error h1 h2 => simp only [Core.mapSubst, mapParam_same]; exact .error h1 (mapOpt_nf hr h2 _)
  | alternative h1 h2 => simp only [Core.mapSubst, mapParam_same]; exact .alternative h1 (mapOpt_nf hr h2 _)
  | smallestSuffix h1 h2 => simp only [Core.mapSubst, mapParam_same]; exact .smallestSuffix h1 (mapOpt_nf hr h2 _)
  | largestSuffix h1 h2 => simp only [Core.mapSubst, mapParam_same]; exact .largestSuffix h1 (mapOpt_nf hr h2 _)
  | smallestPrefix h1 h2 => simp only [Core.mapSubst, mapParam_same]; exact .smallestPrefix h1 (mapOpt_nf hr h2 _)
  | largestPrefix h1 h2 => simp only [Core.mapSubst, mapParam_same]; exact .largestPrefix h1 (mapOpt_nf hr h2 _)

theorem mapSimple_nf {rec : (k : ComplexWordKind TCommand) → k.depth ≤ n → TWord}
    (hr : ∀ k h, KWord k → NfWord (rec k h)) {q s} (h : KSimple q s) (hd) : NfSimple q (stringCore.mapSimple rec s hd) := by
  cases h with
  | literal h => exact .literal h
  | escaped h => exact .escaped h
  | escapedQuoted h => exact .escapedQuoted h
  | param h => simp only [Core.mapSimple, mapParam_same]; exact .param h
  | subst h => exact .subst (mapSubst_nf hr h _)
  | commandSubst h => exact .subst (.command h)
  | pattern h =>
    simp only [List.mem_cons, List.not_mem_nil, or_false] at h
    rcases h with rfl | rfl | rfl | rfl | rfl | rfl <;> exact .pattern (by simp [Core.mapSimple])

theorem mapWord_nf {rec : (k : ComplexWordKind TCommand) → k.depth ≤ n → TWord}
    (hr : ∀ k h, KWord k → NfWord (rec k h)) {w} (h : KPart w) (hd) : NfPart (stringCore.mapWord rec w hd) := by
  cases h with
  | simple h => exact .simple (mapSimple_nf hr h _)
  | single => exact .single
  | double h =>
    refine .double fun s hs => ?_
    obtain ⟨x, hx, rfl⟩ := List.mem_pmap.1 hs
    exact mapSimple_nf hr (h x hx) _

theorem mapSimple_literal {rec : (k : ComplexWordKind TCommand) → k.depth ≤ n → TWord} {s hd t}
    (h : stringCore.mapSimple rec s hd = .Literal t) : ∃ t, s = .Literal t := by
  cases s <;> simp [Core.mapSimple] at h ⊢

theorem mapWord_same {rec : (k : ComplexWordKind TCommand) → k.depth ≤ n → TWord} {a b ha hb}
    (h : SamePart (stringCore.mapWord rec a ha) (stringCore.mapWord rec b hb)) : Mergeable a b := by
  generalize hx : stringCore.mapWord rec a ha = x at h
  generalize hy : stringCore.mapWord rec b hb = y at h
  cases h with
  | literal =>
    cases a <;> simp [Core.mapWord] at hx
    cases b <;> simp [Core.mapWord] at hy
    obtain ⟨_, rfl⟩ := mapSimple_literal hx
    obtain ⟨_, rfl⟩ := mapSimple_literal hy
    trivial
  | single =>
    cases a <;> simp [Core.mapWord] at hx
    cases b <;> simp [Core.mapWord] at hy
    trivial
  | double =>
    cases a <;> simp [Core.mapWord] at hx
    cases b <;> simp [Core.mapWord] at hy
    trivial

theorem pmap_chain {α β : Type} {p : α → Prop} {f : (a : α) → p a → β} {R : α → α → Prop} {S : β → β → Prop}
    (hf : ∀ a b ha hb, S (f a ha) (f b hb) → R a b) {l : List α} (h : l.IsChain fun a b => ¬ R a b) (hp) :
    (l.pmap f hp).IsChain fun a b => ¬ S a b := by
  induction h with
  | nil => exact .nil
  | singleton => exact .singleton _
  | cons_cons h _ ih => exact .cons_cons (fun hs => h (hf _ _ _ _ hs)) (ih fun a ha => hp a (by simp [ha]))

theorem mapSimple_both {rec : (k : ComplexWordKind TCommand) → k.depth ≤ n → TWord} {a b ha hb}
    (h : BothText (stringCore.mapSimple rec a ha) (stringCore.mapSimple rec b hb)) : MergeableSimple a b := by
  obtain ⟨s, t, h1, h2⟩ := h
  obtain ⟨_, rfl⟩ := mapSimple_literal h1
  obtain ⟨_, rfl⟩ := mapSimple_literal h2
  trivial

theorem mapComplex_nf {rec : (k : ComplexWordKind TCommand) → k.depth ≤ n → TWord}
    (hr : ∀ k h, KWord k → NfWord (rec k h)) {k} (h : KWord k)
    (hc : (parts k).IsChain fun a b => ¬ Mergeable a b)
    (hq : ∀ ss, k = .Single (.DoubleQuoted ss) → ss.IsChain fun a b => ¬ MergeableSimple a b) (hd) :
    NfWord ⟨stringCore.mapComplex rec k hd⟩ := by
  cases h with
  | @single w h =>
    refine .single (mapWord_nf hr h _) fun ss e => ?_
    cases h with
    | simple h => simp [Core.mapWord] at e
    | single => simp [Core.mapWord] at e
    | double h =>
      simp only [Core.mapWord, Word.DoubleQuoted.injEq] at e
      subst e
      exact pmap_chain (R := MergeableSimple) (fun _ _ _ _ h => mapSimple_both h) (hq _ rfl) _
  | concat h1 h2 =>
    refine .concat (by simpa using h1) (fun w hw => ?_) (pmap_chain (R := Mergeable) (fun _ _ _ _ h => mapWord_same h) hc _)
    obtain ⟨x, hx, rfl⟩ := List.mem_pmap.1 hw
    exact mapWord_nf hr (h2 x hx) _

theorem wordD_nf : ∀ (n : Nat) (k : ComplexWordKind TCommand) (hd : k.depth ≤ n), KWord k → NfWord (stringCore.wordD n k hd)
  | 0, k, hd, h => absurd hd (by cases k <;> simp [ComplexWordKind.depth])
  | n + 1, k, hd, h =>
    mapComplex_nf (wordD_nf n) (compress_k h) (C32_nothing_left_to_join k) (fun _ e => compress_double h e) _

theorem word_nf {k : ComplexWordKind TCommand} (h : KWord k) : NfWord (stringCore.word k) := wordD_nf _ k _ h

/-! ## Here-documents -/

theorem collect_simples (v : List (SimpleWordKind TCommand)) :
    Coalesce.collect coalesceWord (v.map .Simple) = (Coalesce.collect coalesceSimple v).map .Simple := by
  rw [Coalesce.collect_eq, Coalesce.collect_eq]
  have key : ∀ (v : List (SimpleWordKind TCommand)) x, mergeFrom coalesceWord (.Simple x) (v.map .Simple) =
      (mergeFrom coalesceSimple x v).map .Simple := by
    intro v
    induction v with
    | nil => intro x; rfl
    | cons y v ih =>
      intro x
      simp only [List.map_cons, mergeFrom, coalesceWord]
      cases coalesceSimple x y with
      | ok c => exact ih c
      | error p => obtain ⟨l, r⟩ := p; simp [ih r]
  cases v with
  | nil => rfl
  | cons x v => exact key v x

theorem body_nf {k : ComplexWordKind TCommand} (h : KBody k) : NfBody (stringCore.word k) := by
  have hr := wordD_nf
  suffices ∀ n hd, NfBody (stringCore.wordD n k hd) from this _ _
  intro n hd
  cases n with
  | zero => exact absurd hd (by cases k <;> simp [ComplexWordKind.depth])
  | succ n =>
    simp only [Core.wordD]
    have aux : ∀ k' (hd'), compress k = k' → ((∃ s, k' = .Single (.Simple (.Literal s))) ∨ (∃ s, k' = .Single (.Simple s) ∧ KSimple true s) ∨
        ∃ ss : List (SimpleWordKind TCommand), k' = .Concat (ss.map .Simple) ∧ 2 ≤ ss.length ∧ (∀ s ∈ ss, KSimple true s) ∧
          ss.IsChain fun a b => ¬ MergeableSimple a b) →
        NfBody ⟨stringCore.mapComplex (stringCore.wordD n) k' hd'⟩ := by
      rintro k' hd' - (⟨s, rfl⟩ | ⟨s, rfl, hs⟩ | ⟨ss, rfl, h1, h2, h3⟩)
      · exact .text
      · exact .single (mapSimple_nf (hr n) hs _)
      · have hd2 : ∀ s ∈ ss, s.depth ≤ n := by
          simp only [ComplexWordKind.depth, Nat.add_le_add_iff_right, depthWords_le] at hd'
          intro s hs
          exact hd' (.Simple s) (List.mem_map_of_mem hs)
        have e : stringCore.mapComplex (stringCore.wordD n) (.Concat (ss.map .Simple)) hd' =
            .Concat ((ss.pmap (stringCore.mapSimple (stringCore.wordD n)) hd2).map .Simple) := by
          simp only [Core.mapComplex, List.pmap_map, List.map_pmap]
          rfl
        rw [e]
        refine .concat (by simpa using h1) (fun s hs => ?_) (pmap_chain (R := MergeableSimple) (fun _ _ _ _ h => mapSimple_both h) h3 _)
        obtain ⟨x, hx, rfl⟩ := List.mem_pmap.1 hs
        exact mapSimple_nf (hr n) (h2 x hx) _
    refine aux _ _ rfl ?_
    cases h with
    | @text s => exact .inl ⟨s, rfl⟩
    | @single s h => exact .inr (.inl ⟨s, rfl, h⟩)
    | @concat ss h1 h2 =>
      simp only [compress, collect_simples]
      have h3 := collectSimple_k h2
      have h4 := collectSimple_chain ss
      have h5 : Coalesce.collect coalesceSimple ss ≠ [] := by
        intro h
        have := collectWord_ne (v := ss.map .Simple) (by intro h; simp at h; subst h; simp at h1)
        rw [collect_simples, h] at this
        exact this rfl
      generalize Coalesce.collect coalesceSimple ss = l at *
      match l with
      | [] => exact absurd rfl h5
      | [x] => exact .inr (.inl ⟨x, rfl, h3 x (by simp)⟩)
      | x :: y :: l => exact .inr (.inr ⟨x :: y :: l, rfl, by simp, h3, h4⟩)

end Conch
