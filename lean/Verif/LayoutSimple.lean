import Verif.LayoutWord
/-!
# Reading redirections and simple commands, however they are written (C47)
-/
namespace Conch
open Spec Gram

section
variable {cc : CharClass}

/-! ## Redirections -/

variable (cc) in
/-- The text `t` is read as the redirection `a`, up to `R`. -/
def RedirW (a : Syn .redir) (R t : Str) : Prop :=
  WordEnd cc R → RD .redirect (lex cc t) (some (.inl a.ast)) (lex cc R) ∧ RStart (lex cc t)

/-- The operators before a path or descriptor. -/
def plainRedirs : List Token := [.Less, .Great, .LessGreat, .DGreat, .Clobber, .LessAnd, .GreatAnd]

/-- A redirection operator is not lengthened by what follows it. -/
theorem redir_op (hs : cc.Sane) {k : Token} (hk : k ∈ plainRedirs) {c : Char} {x : Str} (hc : c ∉ "\n;&|<>()".toList) :
    lex cc (k.asStr ++ c :: x) = k :: lex cc (c :: x) := by
  have k1 : ∀ k ∈ plainRedirs, (k.asStr, k) ∈ operators := by decide
  have k2 : ∀ k ∈ plainRedirs, ∀ p ∈ operators, k.asStr <+: p.1 →
      ∀ d, (p.1.drop k.asStr.length).head? = some d → d ∈ "\n;&|<>()".toList := by
    have : ∀ k ∈ plainRedirs, ∀ p ∈ operators, k.asStr <+: p.1 →
      ((p.1.drop k.asStr.length).head?.all fun d => "\n;&|<>()".toList.contains d) = true := by decide
    intro k hk p hp h d hd
    have := this k hk p hp h
    rw [hd] at this
    simpa using this
  refine lex_token hs k c x (k1 k hk) fun p hp h => hc ?_
  obtain ⟨y, hy⟩ := h
  refine k2 k hk p hp ⟨c :: y, by rw [← hy]; simp⟩ c ?_
  rw [← hy]; simp

theorem gap_char (hs : cc.Sane) {g x : Str} (hg : Gap cc g) (hx : ∃ c y, x = c :: y ∧ c ∉ "\n;&|<>()".toList) :
    ∃ c y, g ++ x = c :: y ∧ c ∉ "\n;&|<>()".toList := by
  by_cases h : g = []
  · subst h; exact hx
  · obtain ⟨c, r, rfl, hc, -⟩ := gap_cons hg h
    exact ⟨c, _, rfl, fun e => (blank_not_op hs hc).1 (delim_op e)⟩

theorem redirW_fd (hs : cc.Sane) {fd : Option Nat} (hfd : ∀ n, fd = some n → n ≤ 65535) {k : Token} (hk : k ∈ plainRedirs)
    {g x : Str} (hg : Gap cc g) (hx : ∃ c y, x = c :: y ∧ c ∉ "\n;&|<>()".toList) {a r}
    (h : RD (.redirTail fd) (k :: lex cc (g ++ x)) a r) :
    RD .redirect (lex cc (fdOptText fd ++ (k.asStr ++ (g ++ x)))) (some (.inl a)) r ∧
      RStart (lex cc (fdOptText fd ++ (k.asStr ++ (g ++ x)))) := by
  have k1 : ∀ k ∈ plainRedirs, k ∈ redirOps ∧ (k.asStr, k) ∈ operators := by decide
  obtain ⟨c, y, e, hc⟩ := gap_char hs hg hx
  refine redir_fd hs hfd (k1 k hk).1 (k1 k hk).2 (l := lex cc (g ++ x)) ?_ h
  rw [e, redir_op hs hk hc]

theorem redirW_file (hs : cc.Sane) {fd : Option Nat} {op : FileOp} {w : Syn .parts} {g R t : Str} (hfd : ∀ n, fd = some n → n ≤ 65535)
    (hg : Gap cc g) (hwr : Writes cc false w R t) (hw : w.IsWord) (ho : w.Ok cc true) (ih : PartsW cc w R t) :
    RedirW cc (.file fd op w) R (fdOptText fd ++ (op.text ++ (g ++ t))) := by
  intro hR
  obtain ⟨ks, -, h1, h2, -⟩ := wordW_raw hs hwr hw ho ih hR
  have hnb := wordW_nb hs hwr hw.1 ho
  obtain ⟨c, x, ht, hc, -⟩ := word_char hs hwr hw.1 ho
  have key : ∀ (k : Token) (mk : Option Nat → TopLevelWord Str → RedirectKind (TopLevelWord Str)),
      (k, mk) ∈ pathOps (TopLevelWord Str) → k ∈ plainRedirs →
      k.asStr = op.text → (∀ x, Core.mapRedirect (mk fd x) = op.ast fd x) →
      RD .redirect (lex cc (fdOptText fd ++ (op.text ++ (g ++ t)))) (some (.inl (Syn.file fd op w).ast)) (lex cc R) ∧
        RStart (lex cc (fdOptText fd ++ (op.text ++ (g ++ t)))) := by
    intro k mk hm hk he hmk
    rw [← he]
    refine redirW_fd hs hfd hk hg ⟨c, x, ht, hc⟩ ?_
    exact .redirPath hm (gap_skip hs hg hnb) h1 (calls_word h2) (calls_redirect (hmk _))
  cases op
  · exact key .Less .Read (by simp [pathOps]) (by decide) rfl (fun _ => rfl)
  · exact key .Great .Write (by simp [pathOps]) (by decide) rfl (fun _ => rfl)
  · exact key .LessGreat .ReadWrite (by simp [pathOps]) (by decide) rfl (fun _ => rfl)
  · exact key .DGreat .Append (by simp [pathOps]) (by decide) rfl (fun _ => rfl)
  · exact key .Clobber .Clobber (by simp [pathOps]) (by decide) rfl (fun _ => rfl)

theorem digit_char {c : Char} (h : isDigit c = true) : c ∈ "0123456789".toList := by
  simp only [isDigit, Bool.and_eq_true, decide_eq_true_eq] at h
  have h3 : 48 ≤ c.toNat ∧ c.toNat ≤ 57 := h
  have h4 : ∀ m, m ≤ 57 → 48 ≤ m → Char.ofNat m ∈ "0123456789".toList := by decide
  have := h4 c.toNat h3.2 h3.1
  rwa [Char.ofNat_toNat] at this

theorem digits_char (n : Nat) : ∃ c y, natDigits n = c :: y ∧ c ∉ "\n;&|<>()".toList := by
  have : natDigits n ≠ [] := Nat.toDigits_ne_nil
  obtain ⟨c, y, e⟩ := List.exists_cons_of_ne_nil this
  refine ⟨c, y, e, ?_⟩
  have h := digit_char (natDigits_isDigit (n := n) (c := c) (by rw [e]; simp))
  clear e
  revert c; decide

theorem redirW_dup (hs : cc.Sane) {fd : Option Nat} {op : DupOp} {n : Nat} {g R : Str} (hfd : ∀ n, fd = some n → n ≤ 65535)
    (hg : Gap cc g) : RedirW cc (.dup fd op n) R (fdOptText fd ++ (op.text ++ (g ++ (natDigits n ++ R)))) := by
  intro hR
  have hlx : lex cc (natDigits n ++ R) = .Literal (natDigits n) :: lex cc R := by
    refine lex_cons hs (t := .Literal (natDigits n)) (lit_shape hs n) (by simp) fun c hc hp => ?_
    obtain ⟨r, rfl⟩ : ∃ r, R = c :: r := by
      cases R with
      | nil => cases hc
      | cons d r => cases hc; exact ⟨r, rfl⟩
    exact hR.notPlain _ _ rfl hp
  have hnb : NB cc (natDigits n ++ R) := by rw [NB, hlx]; simp [Gram.NoBlank]
  obtain ⟨c, x, ht, hc⟩ := digits_char n
  have key : ∀ (k : Token) (mk : Option Nat → TopLevelWord Str → RedirectKind (TopLevelWord Str)),
      (k, mk) ∈ dupOps (TopLevelWord Str) → k ∈ plainRedirs →
      k.asStr = op.text → (∀ x, Core.mapRedirect (mk fd x) = op.ast fd x) →
      RD .redirect (lex cc (fdOptText fd ++ (op.text ++ (g ++ (natDigits n ++ R))))) (some (.inl (Syn.dup fd op n).ast)) (lex cc R) ∧
        RStart (lex cc (fdOptText fd ++ (op.text ++ (g ++ (natDigits n ++ R))))) := by
    intro k mk hm hk he hmk
    rw [← he]
    refine redirW_fd hs hfd hk hg ⟨c, x ++ R, by rw [ht]; rfl, hc⟩ ?_
    have hraw : RD (.rawWord none) (lex cc (natDigits n ++ R)) (some (.Single (.Simple (.Literal (natDigits n))))) (lex cc R) := by
      rw [hlx]
      exact plain_word (B := DefaultBuilder) (bs := []) (u := [.Literal (natDigits n)]) .nil (by simp)
        (by simp [PlainToken]) (by simp) (hR.ends hs) ()
    refine .redirDup hm (gap_skip hs hg hnb) ?_ hraw ?_ (calls_word (lit_wordAst _)) (calls_redirect (hmk _))
    · rw [hlx]; rintro r e; cases e
    · exact .single (.simple (.literal fun c hc => digit_char (natDigits_isDigit hc)))
  cases op
  · exact key .LessAnd .DupRead (by simp [dupOps]) (by decide) rfl (fun _ => rfl)
  · exact key .GreatAnd .DupWrite (by simp [dupOps]) (by decide) rfl (fun _ => rfl)

theorem redirW_close (hs : cc.Sane) {fd : Option Nat} {op : DupOp} {g R : Str} (hfd : ∀ n, fd = some n → n ≤ 65535)
    (hg : Gap cc g) : RedirW cc (.close fd op) R (fdOptText fd ++ (op.text ++ (g ++ '-' :: R))) := by
  intro hR
  have hlx : lex cc ('-' :: R) = .Dash :: lex cc R := lex_end hs .Dash R (by decide) (by decide)
  have hnb : NB cc ('-' :: R) := by rw [NB, hlx]; simp [Gram.NoBlank]
  have key : ∀ (k : Token) (mk : Option Nat → TopLevelWord Str → RedirectKind (TopLevelWord Str)),
      (k, mk) ∈ dupOps (TopLevelWord Str) → k ∈ plainRedirs →
      k.asStr = op.text → (∀ x, Core.mapRedirect (mk fd x) = op.ast fd x) →
      RD .redirect (lex cc (fdOptText fd ++ (op.text ++ (g ++ '-' :: R)))) (some (.inl (Syn.close fd op).ast)) (lex cc R) ∧
        RStart (lex cc (fdOptText fd ++ (op.text ++ (g ++ '-' :: R)))) := by
    intro k mk hm hk he hmk
    rw [← he]
    refine redirW_fd hs hfd hk hg ⟨'-', R, rfl, by decide⟩ ?_
    refine .redirDupDash hm (r := lex cc R) ?_ (hR.ends hs) (calls_word (lit_wordAst _)) (calls_redirect (hmk _))
    rw [← hlx]
    exact gap_skip hs hg hnb
  cases op
  · exact key .LessAnd .DupRead (by simp [dupOps]) (by decide) rfl (fun _ => rfl)
  · exact key .GreatAnd .DupWrite (by simp [dupOps]) (by decide) rfl (fun _ => rfl)

theorem startsRedir_tail {s : Str} (h : StartsRedir s) : WordEnd cc s := by
  cases s with
  | nil => rcases h with h | h <;> cases h
  | cons c s =>
    refine tail_op ?_
    rcases h with h | h <;> (cases h; decide)

theorem apart_tail {g s : Str} (h : Apart cc false g s) : WordEnd cc (g ++ s) := by
  refine gap_tail h.1 fun e => ?_
  rcases h.2.2 rfl with h | h
  · exact absurd e h
  · exact startsRedir_tail h

theorem startsRedir_append {x y : Str} (h : StartsRedir x) : StartsRedir (x ++ y) := by
  cases x with
  | nil => rcases h with h | h <;> cases h
  | cons c x => exact h

theorem apart_append {o : Bool} {g x y : Str} (h : Apart cc o g x) : Apart cc o g (x ++ y) :=
  ⟨h.1, h.2.1, fun e => (h.2.2 e).imp id startsRedir_append⟩

/-! ### Here-documents -/

theorem wordEnd_tail {tail after : Str} (h : WordEnd cc (tail ++ '\n' :: after)) : tail = [] ∨ Delim cc tail := by
  cases tail with
  | nil => exact .inl rfl
  | cons c tail =>
    rcases h with h | ⟨d, x, e, hd⟩
    · cases h
    · cases e; exact .inr ⟨_, _, rfl, hd⟩

theorem hereWord_ast {ps : List (SimpleWordKind CK)} (h : List.IsChain (fun a b => ¬ MergeableSimple a b) ps) :
    stringCore.word (hereWord ps) = hereAst (ps.map stringCore.simpleOf) := by
  by_cases hn : ps = []
  · subst hn; rfl
  have e : hereWord ps = wordWith (ps.map .Simple) := by
    match ps, hn with
    | [_], _ | _ :: _ :: _, _ => rfl
  have hm : merge coalesceWord (ps.map .Simple) = ps.map .Simple := by
    refine merge_fixed (M := Mergeable) (fun a b h => coalesceWord_not h) _ ?_
    rw [List.isChain_map]
    refine h.imp fun a b hab hM => hab ?_
    unfold Mergeable at hM
    split at hM
    · rename_i e1 e2; cases e1; cases e2; trivial
    · rename_i e1 e2; cases e1
    · rename_i e1 e2; cases e1
    · exact hM.elim
  rw [e, word_of (by simpa using hn) (by simp), hm]
  match ps, hn with
  | p :: ps, _ =>
    simp only [List.map_cons, hereAst, List.map_map]
    rfl

theorem redirW_hereFd (hs : cc.Sane) {fd : Option Nat} (hfd : ∀ n, fd = some n → n ≤ 65535) {strip : Bool} {x : Str}
    (hx : strip = false → x.head? ≠ some '-') {a r}
    (h : RD (.heredoc fd) (hereTok strip :: lex cc x) a r) :
    RD .redirect (lex cc (fdOptText fd ++ (hereOp strip ++ x))) (some (.inl a)) r ∧
      RStart (lex cc (fdOptText fd ++ (hereOp strip ++ x))) := by
  obtain ⟨-, -, h3, h4, -, h6⟩ := hereTok_spec strip
  have hl := lex_hereOp hs strip hx
  rw [h3] at hl ⊢
  exact redir_fd hs hfd h6 h4 hl (.redirHeredoc h)

theorem head_dash {g q x : Str} (hq : q ≠ []) {strip : Bool} (h : strip = false → (g ++ q).head? ≠ some '-') :
    strip = false → (g ++ (q ++ x)).head? ≠ some '-' := by
  intro e
  have := h e
  obtain ⟨c, q, rfl⟩ := List.exists_cons_of_ne_nil hq
  cases g <;> exact this

theorem redirW_hereQuoted (hs : cc.Sane) {fd : Option Nat} {strip : Bool} {g d q tail : Str} {lines : List (Str × Str)}
    {text last after : Str} (hfd : ∀ n, fd = some n → n ≤ 65535) (hg : Gap cc g) (hq : WritesDelim cc true d q) (hd : d ≠ [])
    (ht : strip = true → cc.whitespace '\t' = true) (hx : strip = false → (g ++ q).head? ≠ some '-')
    (htail : Spans '\n' tail) (hp : tail.head? ≠ some '(')
    (hl : ∀ p ∈ lines, '\n' ∉ p.1 ∧ Strips strip p.1 p.2 ∧ ¬ DelimLine d p.2) (he : HereEnd strip d text last after) :
    RedirW cc (.hereQuoted fd (linesText (lines.map (·.2)) ++ last)) (tail ++ '\n' :: after)
      (fdOptText fd ++ (hereOp strip ++ (g ++ (q ++ (tail ++ '\n' :: (linesText (lines.map (·.1)) ++ text)))))) := by
  intro hR
  have hne := writesDelim_ne hq hd
  rw [ast_hereQuoted]
  exact redirW_hereFd hs hfd (head_dash hne hx)
    (here_quoted hs ht hd hq htail (wordEnd_tail hR) hp hl he (gap_skip hs hg (delim_noBlank hs hq hne)))

theorem redirW_here (hs : cc.Sane) {fd : Option Nat} {strip : Bool} {g d q tail : Str} {lines : List (Str × Str)}
    {text last after : Str} {body : Syn .dparts} (hfd : ∀ n, fd = some n → n ≤ 65535) (hg : Gap cc g)
    (hq : WritesDelim cc false d q) (hd : d ≠ [])
    (ht : strip = true → cc.whitespace '\t' = true) (hx : strip = false → (g ++ q).head? ≠ some '-')
    (htail : Spans '\n' tail) (hp : tail.head? ≠ some '(')
    (hl : ∀ p ∈ lines, '\n' ∉ p.1 ∧ Strips strip p.1 p.2 ∧ ¬ DelimLine d p.2) (he : HereEnd strip d text last after)
    (hb : DW cc body [] (linesText (lines.map (·.2)) ++ last)) :
    RedirW cc (.here fd body) (tail ++ '\n' :: after)
      (fdOptText fd ++ (hereOp strip ++ (g ++ (q ++ (tail ++ '\n' :: (linesText (lines.map (·.1)) ++ text)))))) := by
  intro hR
  have hne := writesDelim_ne hq hd
  obtain ⟨qs, h1, h2, h3, -⟩ := hb none [] (.inr ⟨rfl, rfl, rfl⟩)
  rw [lex_empty] at h1
  rw [ast_here, ← h2, ← hereWord_ast h3]
  exact redirW_hereFd hs hfd (head_dash hne hx)
    (here_unquoted hs ht hd hq htail (wordEnd_tail hR) hp hl he (gap_skip hs hg (delim_noBlank hs hq hne)) (.interp h1))

variable (cc) in
def RedirsW (io : Syn .redirs) (E t : Str) : Prop :=
  ∀ rest, After cc E rest → RD .redirects (lex cc t) io.ast (lex cc rest) ∧ WordEnd cc t

theorem redirsW_nil (hs : cc.Sane) {E : Str} : RedirsW cc .rnil E E := fun _ h => ⟨h.redirects hs, h.tail⟩

theorem redirsW_cons (hs : cc.Sane) {a : Syn .redir} {io : Syn .redirs} {g E t t' : Str} (hg : Apart cc false g t) (ha : RedirW cc a t' t)
    (ih : RedirsW cc io E t') : RedirsW cc (.rcons a io) E (g ++ t) := by
  intro rest h
  obtain ⟨h1, h2⟩ := ih rest h
  obtain ⟨h3, h4⟩ := ha h2
  exact ⟨.redirectsCons (gap_skip hs hg.1 h4.nb) h3 h1, apart_tail hg⟩

/-! ## Words -/

variable (cc) in
def WordsW (ws : Syn .words) (E t : Str) : Prop :=
  ∀ rest, After cc E rest → RD .words (lex cc t) ws.ast (lex cc rest) ∧ WordEnd cc t

theorem wordsW_nil (hs : cc.Sane) {E : Str} : WordsW cc .wnil E E := fun _ h => ⟨h.words hs, h.tail⟩

theorem wordsW_cons (hs : cc.Sane) {w : Syn .parts} {ws : Syn .words} {g E t t' : Str} (hg : Gap cc g) (hn : g ≠ [])
    (hwr : Writes cc false w t' t) (hw : w.IsWord) (ho : w.Ok cc true) (ihw : PartsW cc w t' t)
    (ih : WordsW cc ws E t') : WordsW cc (.wcons w ws) E (g ++ t) := by
  intro rest h
  obtain ⟨h1, h2⟩ := ih rest h
  obtain ⟨l, hl⟩ := skip_total (lex cc t')
  have h3 := wordW_read hs hwr hw ho ihw h2 hl
  have hnb := wordW_nb hs hwr hw.1 ho
  exact ⟨.wordsCons (word_same (Alike.of (gap_skip hs hg hnb)) h3) (words_same (Alike.of hl).symm h1),
    gap_tail hg fun e => absurd e hn⟩

/-! ## Simple commands -/

variable (cc) in
/-- The text `t` is read as what follows the command word. -/
def ArgsW (o : Bool) (as : Syn .args) (E t : Str) : Prop :=
  ∀ rest, After cc E rest → RD .args (lex cc t) as.ast (lex cc rest) ∧ (o = false → WordEnd cc t) ∧
    ∀ l, Skip (lex cc t) l → ∀ l', l ≠ .ParenOpen :: l'

theorem argsW_nil (hs : cc.Sane) {o : Bool} {E : Str} : ArgsW cc o .anil E E := by
  intro rest h
  refine ⟨h.args hs, fun _ => h.tail, fun l hl l' e => ?_⟩
  have := hl.unique (h.skip hs)
  subst this
  have := h.stop.tokens e
  simp at this

theorem redirTok_char {R : Str} {t : Token} {r : List Token} (h : lex cc R = t :: r) (ht : t ∈ redirOps) : StartsRedir R := by
  have := C01_concat_tokens cc R
  rw [h, concatTokens_cons] at this
  have k : ∀ t ∈ redirOps, t.asStr.head? = some '<' ∨ t.asStr.head? = some '>' := by decide
  rw [← this]
  rcases k t ht with h | h <;> [left; right] <;> (cases hx : t.asStr <;> rw [hx] at h <;> [cases h; exact h])

/-- A word where a redirection might be. -/
theorem wordW_redirect (hs : cc.Sane) {w : Syn .parts} {t t' : Str} (hwr : Writes cc false w t' t) (hw : w.IsWord) (ho : w.Ok cc true)
    (ih : PartsW cc w t' t) (hR : WordEnd cc t') (hn : StartsRedir t' → w.isNumber = false) :
    RD .redirect (lex cc t) (some (.inr (wordAst w.ast))) (lex cc t') := by
  obtain ⟨ks, hks, h1, h2, h3⟩ := wordW_raw hs hwr hw ho ih hR
  refine .redirectWord h1 ?_ (calls_word h2)
  rintro ⟨n, hfd⟩ k r e hk
  have hnum := number_word h3 hfd hks ho
  have hst := redirTok_char e hk
  rw [hn hst] at hnum; cases hnum

theorem argsW_word (hs : cc.Sane) {o : Bool} {w : Syn .parts} {as : Syn .args} {g E t t' : Str} (hg : Apart cc o g t)
    (hwr : Writes cc false w t' t) (hw : w.IsWord) (ho : w.Ok cc true)
    (hp : PartsW cc w t' t) (ih : ArgsW cc false as E t') (hn : StartsRedir t' → w.isNumber = false) :
    ArgsW cc o (.aword w as) E (g ++ t) := by
  intro rest h
  obtain ⟨h1, h2, -⟩ := ih rest h
  have hnb := wordW_nb hs hwr hw.1 ho
  have hsk := gap_skip hs hg.1 hnb
  refine ⟨.argsWord (redirect_same (Alike.of hsk) (wordW_redirect hs hwr hw ho hp (h2 rfl) hn)) h1, ?_, fun l hl l' e => ?_⟩
  · rintro rfl; exact apart_tail hg
  · have := hl.unique hsk
    subst this
    obtain ⟨c, x, rfl, hc, -⟩ := word_char hs hwr hw.1 ho
    have := C01_concat_tokens cc (c :: x)
    rw [e, concatTokens_cons] at this
    injection this with this _
    subst this
    exact hc (by decide)

theorem argsW_redir (hs : cc.Sane) {o : Bool} {a : Syn .redir} {as : Syn .args} {g E t t' : Str} (hg : Apart cc o g t)
    (ha : RedirW cc a t' t) (ih : ArgsW cc false as E t') : ArgsW cc o (.aredir a as) E (g ++ t) := by
  intro rest h
  obtain ⟨h1, h2, -⟩ := ih rest h
  obtain ⟨h3, h4⟩ := ha (h2 rfl)
  have hsk := gap_skip hs hg.1 h4.nb
  refine ⟨.argsRedirect (redirect_same (Alike.of hsk) h3) h1, ?_, fun l hl l' e => ?_⟩
  · rintro rfl; exact apart_tail hg
  · have := hl.unique hsk
    subst this
    obtain ⟨k, l', h | ⟨n, h⟩, hk⟩ := h4
    · rw [h] at e; cases e; revert hk; decide
    · rw [h] at e; cases e

variable (cc) in
/-- The text `t` is read as what precedes the command word. -/
def PresW (o : Bool) (p : Syn .pres) (R t : Str) : Prop :=
  (p ≠ .pnil → WordEnd cc R) → (∀ e r, RD .assigns (lex cc R) ([], e) r → RD .assigns (lex cc t) (p.ast, e) r) ∧
    (o = false → WordEnd cc R → WordEnd cc t)

theorem presW_nil {o : Bool} {R : Str} : PresW cc o .pnil R R := fun _ => ⟨fun _ _ h => h, fun _ h => h⟩

/-- Nothing where a word could be. -/
theorem no_wordW (hs : cc.Sane) {R : Str} (hR : WordEnd cc R) (hb : ∀ v l, lex cc R ≠ .Whitespace v :: l) :
    RD .word (lex cc R) none (lex cc R) := by
  have hnb : NB cc R := by
    refine ⟨fun v l e => hb v l e, fun r e => ?_⟩
    have := hR.ends hs _ _ e; cases this
  have hraw : RD (.rawWord none) (lex cc R) none (lex cc R) := by
    refine Reads.someWord (ws := []) (.refl hnb) (fun r e => ?_) (.endWord (hR.ends hs))
    have := hR.ends hs _ _ e; cases this
  exact .word (.wordPNone hraw) (.refl hnb)

theorem presW_assign (hs : cc.Sane) {o : Bool} {x : Str} {w : Syn .parts} {p : Syn .pres} {g R t t' : Str} (hg : Apart cc o g x)
    (hx : Shape cc (.Name x)) (hf : w.firstChar ≠ some '#') (hwr : Writes cc false w t' t) (ho : w.Ok cc true)
    (hp : PartsW cc w t' t) (ih : PresW cc false p R t') : PresW cc o (.passign x w p) R (g ++ (x ++ '=' :: t)) := by
  intro hR
  have hR := hR (by simp)
  obtain ⟨h1, h2⟩ := ih (fun _ => hR)
  have hR' := h2 rfl hR
  refine ⟨fun e r h => ?_, fun ho _ => ?_⟩
  · have h3 := h1 e r h
    have hsk : Skip (lex cc (g ++ (x ++ '=' :: t))) (.Name x :: .Equals :: lex cc t) := by
      rw [← lex_assign hs hx]
      refine gap_skip hs hg.1 ?_
      rw [NB, lex_assign hs hx]; simp [Gram.NoBlank]
    by_cases hn : w.isNil = true
    · have : w = .nil := by cases w <;> first | rfl | cases hn
      subst this
      cases hwr
      have ea : (Syn.passign x .nil p).ast = .EnvVar x none :: p.ast := rfl
      rw [ea]
      by_cases hb : ∃ v l, lex cc t = .Whitespace v :: l
      · obtain ⟨v, l, hb⟩ := hb
        rw [hb] at hsk h3
        exact .assignEmpty hsk h3
      · have hb : ∀ v l, lex cc t ≠ .Whitespace v :: l := fun v l e => hb ⟨v, l, e⟩
        exact .assign hsk hb (no_wordW hs hR' hb) h3
    · have hn : w.isNil = false := by simpa using hn
      have ea : (Syn.passign x w p).ast = .EnvVar x (some (wordAst w.ast)) :: p.ast := by
        rw [ast_passign, opt_isNil hn]
      rw [ea]
      obtain ⟨l, hl⟩ := skip_total (lex cc t')
      refine .assign hsk (fun v l2 e => ?_) (wordW_read hs hwr ⟨hn, hf⟩ ho hp hR' hl) (assigns_same (Alike.of hl).symm h3)
      have := wordW_nb hs hwr hn ho
      rw [NB, e] at this
      exact this.1 _ _ rfl
  · subst ho
    exact apart_tail (apart_append hg)

theorem presW_redir (hs : cc.Sane) {o : Bool} {a : Syn .redir} {p : Syn .pres} {g R t t' : Str} (hg : Apart cc o g t)
    (ha : RedirW cc a t' t) (ih : PresW cc false p R t') : PresW cc o (.predir a p) R (g ++ t) := by
  intro hR
  have hR := hR (by simp)
  obtain ⟨h1, h2⟩ := ih (fun _ => hR)
  obtain ⟨h3, h4⟩ := ha (h2 rfl hR)
  refine ⟨fun e r h => .assignsRedirect (gap_skip hs hg.1 h4.nb) h4.notAssign h3 (h1 e r h), fun ho _ => ?_⟩
  subst ho
  exact apart_tail hg

/-! ## Commands -/

theorem semi_delim : ∀ c ∈ ";&|".toList, c ∈ "\n;&|<>()".toList := by decide

/-- The first character starts no operator between commands. -/
def Head (t : Str) : Prop := ∃ c x, t = c :: x ∧ c ∉ ";&|".toList

theorem Head.append {t x : Str} (h : Head t) : Head (t ++ x) := by
  obtain ⟨c, y, rfl, hc⟩ := h
  exact ⟨c, y ++ x, rfl, hc⟩

theorem Head.ne {t : Str} (h : Head t) {c : Char} (hc : c ∈ ";&|".toList) : t.head? ≠ some c := by
  obtain ⟨d, y, rfl, hd⟩ := h
  intro e; cases e; exact hd hc

variable (cc) in
/-- The text `t` is read as the command `c`, up to `E`. -/
def CmdW (c : Syn .cmd) (E t : Str) : Prop :=
  Head t ∧ ∀ rest, After cc E rest → RD .command (lex cc t) c.ast (lex cc rest) ∧ CmdStart (lex cc t) ∧
    ∀ l, lex cc t ≠ .Bang :: l

theorem name_head {x y : Str} (hx : Shape cc (.Name x)) (hs : cc.Sane) : Head (x ++ y) := by
  obtain ⟨c, w, rfl, hc, -⟩ := hx
  refine ⟨c, w ++ y, rfl, fun h => ?_⟩
  have : cc.nameChar c = true := by
    simp only [CharClass.nameChar, CharClass.nameStart]
    rcases hc with rfl | hc <;> simp [*]
  have hp := hs.plain this
  exact hp.2.1 (delim_op (by revert h; clear hp this hc; revert c; decide))

theorem redir_head {a : Syn .redir} {R t : Str} (h : Writes cc false a R t) : Head t := by
  have key : ∀ (fd : Option Nat) (s y : Str), (s.head? = some '<' ∨ s.head? = some '>') → Head (fdOptText fd ++ (s ++ y)) := by
    intro fd s y h
    cases fd with
    | none =>
      cases s with
      | nil => rcases h with h | h <;> cases h
      | cons c s =>
        refine ⟨c, s ++ y, rfl, ?_⟩
        rcases h with h | h <;> (cases h; decide)
    | some n =>
      obtain ⟨c, y', e, hc⟩ := digits_char n
      refine ⟨c, y' ++ (s ++ y), ?_, ?_⟩
      · show natDigits n ++ _ = _
        rw [e]; rfl
      · intro h; refine hc ?_; revert h; clear e hc; revert c; decide
  cases h with
  | @file fd op => exact key _ _ _ (by cases op <;> decide)
  | @dup fd op => exact key _ _ _ (by cases op <;> decide)
  | @close fd op => exact key _ _ _ (by cases op <;> decide)
  | @hereQuoted fd strip => exact key _ _ _ (by cases strip <;> decide)
  | @here fd strip => exact key _ _ _ (by cases strip <;> decide)

variable (cc) in
/-- What precedes the command word, and its parts. -/
def PresM (o : Bool) (p : Syn .pres) (R t : Str) : Prop :=
  PresW cc o p R t ∧ ∀ a q, p = .predir a q → ∃ g t1 t2, t = g ++ t1 ∧ Apart cc o g t1 ∧ Writes cc false a t2 t1 ∧
    RedirW cc a t2 t1 ∧ PresW cc false q R t2

variable (cc) in
/-- What follows the assignments, and its parts. -/
def ArgsM (o : Bool) (as : Syn .args) (E t : Str) : Prop :=
  ArgsW cc o as E t ∧ ∀ w r, as = .aword w r → ∃ g t1 t2, t = g ++ t1 ∧ Apart cc o g t1 ∧ Writes cc false w t2 t1 ∧
    PartsW cc w t2 t1 ∧ ArgsW cc false r E t2 ∧ (StartsRedir t2 → w.isNumber = false)

theorem presW_start (hs : cc.Sane) {p : Syn .pres} {t R : Str} (h : Writes cc true p R t) (hp : p.Ok cc true) (hne : p ≠ .pnil)
    (hm : PresM cc true p R t) (hR : WordEnd cc R) : SimpleStart (lex cc t) ∧ Head t := by
  cases h with
  | pnil => exact absurd rfl hne
  | @passign _ g x w r _ t' t hg hw hr =>
    have hx : Shape cc (.Name x) := hp.1
    obtain rfl := hg.2.1 rfl
    refine ⟨?_, (name_head hx hs : Head (x ++ _))⟩
    rw [List.nil_append, lex_assign hs hx]
    refine ⟨?_, ⟨_, _, rfl, by simp⟩, ?_, ?_, by simp [Gram.NoBlank]⟩
    · rintro y - r ⟨e | e, he⟩
      · cases e; have := he _ _ rfl; cases this
      · cases e
    · rintro y r e; cases e
    · rintro y w r e; cases e
  | @predir _ g a r _ t' t hg ha hr =>
    obtain ⟨g1, t1, t2, e, hg1, ha1, ha2, hq⟩ := hm.2 a r rfl
    obtain rfl := hg1.2.1 rfl
    rw [e, List.nil_append]
    exact ⟨(ha2 ((hq (fun _ => hR)).2 rfl hR)).2.simple, redir_head ha1⟩

theorem noPres_iff {p : Syn .pres} : p.noPres = true ↔ p = .pnil := by cases p <;> simp [Syn.noPres]

theorem cmdW_simple (hs : cc.Sane) {pre : Syn .pres} {args : Syn .args} {E t t' : Str} (hpw : Writes cc true pre t' t)
    (haw : Writes cc pre.noPres args E t') (hne : Syn.NonEmpty pre args) (hst : args.StartsWord)
    (hpo : pre.Ok cc true) (hao : args.Ok cc true) (hpre : PresM cc true pre t' t) (hargs : ArgsM cc pre.noPres args E t') :
    CmdW cc (.simple pre args) E t := by
  -- the command word
  have hhead : pre = .pnil → Head t' := by
    rintro rfl
    cases args with
    | anil => exact absurd hne (by simp [Syn.NonEmpty])
    | aredir a r => cases hst
    | aword w as =>
      obtain ⟨g, t1, t2, rfl, hg, hw, -⟩ := hargs.2 w as rfl
      rw [Ok_aword] at hao
      obtain rfl := hg.2.1 rfl
      obtain ⟨c, x, rfl, hc, -⟩ := word_char hs hw hao.1.1 hao.2.1
      exact ⟨c, x, rfl, fun h => hc (semi_delim c h)⟩
  have key : ∀ rest, After cc E rest → ∃ ew as l, RD .assigns (lex cc t') ([], ew) l ∧ RD .args l as (lex cc rest) ∧
      ew.toList.map .CmdWord ++ as = args.ast ∧ (pre ≠ .pnil → WordEnd cc t') ∧
      (pre = .pnil → ew.isSome ∧ SimpleStart (lex cc t')) := by
    intro rest hE
    have hend : pre ≠ .pnil → WordEnd cc t' := fun h =>
      (hargs.1 rest hE).2.1 (by cases pre <;> first | exact absurd rfl h | rfl)
    cases args with
    | anil =>
      obtain rfl : t' = E := by
        generalize pre.noPres = o at haw
        cases haw; rfl
      refine ⟨none, [], lex cc rest, hE.assigns hs, args_same (Alike.of (hE.skip hs)).symm (hE.args hs), rfl, hend, ?_⟩
      rintro rfl; exact absurd hne (by simp [Syn.NonEmpty])
    | aredir a r => cases hst
    | aword w as =>
      obtain ⟨g, t1, t2, rfl, hg, hw, hp, has, hnum⟩ := hargs.2 w as rfl
      rw [Ok_aword] at hao
      obtain ⟨h1, h2, h3⟩ := has rest hE
      obtain ⟨h4, h5⟩ := wordW_start hs hw hao.1 hao.2.1 hst (h2 rfl) h3
      have hsk := gap_skip hs hg.1 (wordW_nb hs hw hao.1.1 hao.2.1)
      refine ⟨some (wordAst w.ast), as.ast, lex cc t2, ?_, h1, rfl, hend, ?_⟩
      · exact .assignsWord hsk h5 (wordW_redirect hs hw hao.1 hao.2.1 hp (h2 rfl) hnum)
      · rintro rfl
        obtain rfl := hg.2.1 rfl
        exact ⟨rfl, h4⟩
  refine ⟨?_, fun rest hE => ?_⟩
  · cases pre with
    | pnil => cases hpw; exact hhead rfl
    | passign x w r =>
      cases hpw with
      | passign hg _ _ => obtain rfl := hg.2.1 rfl; exact (name_head hpo.1 hs : Head (x ++ _))
    | predir a r =>
      cases hpw with
      | predir hg ha _ => obtain rfl := hg.2.1 rfl; exact redir_head ha
  obtain ⟨ew, as, l, k1, k2, k3, k4, k5⟩ := key rest hE
  obtain ⟨h1, -⟩ := hpre.1 k4
  have hss : SimpleStart (lex cc t) := by
    by_cases hp : pre = .pnil
    · subst hp
      cases hpw
      exact (k5 rfl).2
    · exact (presW_start hs hpw hpo hp hpre (k4 hp)).1
  refine ⟨.commandSimple (.refl hss.nb) hss.compound hss.function (.simple (h1 _ _ k1) k2 ?_ ?_), hss.starts, ?_⟩
  · cases pre with
    | pnil => exact .inr (.inl (k5 rfl).1)
    | passign => exact .inl (by rw [ast_passign]; simp)
    | predir => exact .inl (by rw [ast_predir]; simp)
  · rw [k3]; exact calls_simple _ _
  · obtain ⟨k, l', e, hk⟩ := hss.ne
    rintro l e'
    rw [e] at e'; cases e'; simp at hk

end
end Conch
