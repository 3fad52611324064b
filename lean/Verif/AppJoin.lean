import Verif.AppRead
import Verif.PropsAfter
import Verif.NormalTree
/-!
# More words after a blank: putting them there
-/
namespace Conch.Gram
open Conch

section
variable {B : Builder} {b b' : B.State} {l r : List Token}

/-- What does not skip blanks at its end is read in the same way before a blank. -/
theorem tight_ext {n : NT} {a : n.Res B} (w : Str) (Y : List Token) (hp : n.Proper) (hs : n.slack a = 0) (ht : n.tout = true)
    (hx : Plain none l) (h : Reads n b l a r b') :
    Plain none r ∧ Reads n b (l ++ .Whitespace w :: Y) a (r ++ .Whitespace w :: Y) b' := by
  obtain ⟨r1, ⟨x1, hx1, e1, e2⟩, h1⟩ := h.nlEnd (c := false) hp (l ++ [.Newline]) ⟨l, hx, by simp [nlIf], by simp [nlIf]⟩ (by simp [hs])
  simp only [nlIf, Bool.false_eq_true, if_false, List.append_nil, Bool.not_false, if_true] at e1 e2
  subst e1 e2
  have hti : n.tin = false := by cases n <;> first | rfl | cases ht
  obtain ⟨r2, e, h2⟩ := h1.cmEnd (w0 := w) (T := [.Newline]) hp (l ++ .Whitespace w :: [.Newline])
    ⟨⟨[], .inr rfl⟩, .inl ⟨l, hx, rfl, rfl⟩⟩ (by simp [hs])
  rw [ht] at e
  obtain ⟨-, ⟨x, -, e1, rfl⟩ | ⟨e1, -⟩⟩ := e
  · obtain rfl := (List.append_inj' e1 rfl).1
    obtain ⟨r3, ⟨x, -, e1, rfl⟩, h3⟩ := h2.blEnd (w0 := w) (Y := Y) hp (l ++ .Whitespace w :: Y) ⟨l, hx, by simp, by simp⟩ (by simp)
    obtain rfl := (List.append_inj' e1 rfl).1
    exact ⟨hx1, h3⟩
  · cases e1

/-- A part of a word is read in the same way before a blank. -/
theorem piece_ext {a} (w : Str) (Y : List Token) (hx : Plain none l) (h : Reads (B := B) .piece b l a r b') :
    Plain none r ∧ Reads (B := B) .piece b (l ++ .Whitespace w :: Y) a (r ++ .Whitespace w :: Y) b' :=
  tight_ext w Y trivial rfl rfl hx h

theorem endsWord_ext {w : Str} {Y : List Token} (h : EndsWord l) : EndsWord (l ++ .Whitespace w :: Y) := by
  intro t q e
  cases l with
  | nil => simp at e; rw [← e.1]; rfl
  | cons x l => simp at e; exact h t l (by rw [e.1])

/-- The parts of a word. -/
theorem pieces_ext {ws} (w : Str) (Y : List Token) {b b' : B.State} (hx : Plain none l) (h : Reads (B := B) (.pieces none) b l ws r b') :
    Plain none r ∧ Reads (B := B) (.pieces none) b (l ++ .Whitespace w :: Y) ws (r ++ .Whitespace w :: Y) b' := by
  induction ws generalizing l b with
  | nil =>
    cases h with
    | endWord h => exact ⟨hx, .endWord (endsWord_ext h)⟩
    | endEscaped h => exact ⟨hx.suffix (v := [.Backslash, .Newline]), .endEscaped h⟩
    | endBackslash => exact absurd rfl hx.last
  | cons k ws ih =>
    cases h with
    | consPiece h1 h2 h3 =>
      obtain ⟨hx1, g1⟩ := piece_ext w Y hx h2
      obtain ⟨hx2, g2⟩ := ih hx1 h3
      exact ⟨hx2, .consPiece (by simp) g1 g2⟩

theorem rawWord_ext {k} (w : Str) (Y : List Token) (hx : Plain none l) (h : Reads (B := B) (.rawWord none) b l (some k) r b') :
    Plain none r ∧ Reads (B := B) (.rawWord none) b (l ++ .Whitespace w :: Y) (some k) (r ++ .Whitespace w :: Y) b' := by
  generalize e : some k = o at h
  cases h with
  | noWord => cases e
  | someWord h1 h2 h3 =>
    rename_i l' ws
    have hne : l' ≠ [] := by
      rintro rfl
      cases h3 with
      | endWord => cases e
      | consPiece _ h => have := h.piece_lt; simp at this
    obtain ⟨hx2, g⟩ := pieces_ext w Y (h1.plain hx) h3
    refine ⟨hx2, .someWord (skip_extend h1 hx hne) ?_ g⟩
    obtain ⟨t, l', rfl⟩ := List.exists_cons_of_ne_nil hne
    rintro r e
    simp at e
    exact h2 l' (by rw [e.1])

theorem here_plain {t : Token} (hx : Plain none (t :: l)) : ¬ (t = .DLess ∨ t = .DLessDash) := by
  have := hx.noHere rfl t (by simp)
  rintro (rfl | rfl) <;> simp at this

theorem redirTail_ext {fd a} (w : Str) (Y : List Token) (hx : Plain none l) (h : Reads (B := B) (.redirTail fd) b l a r b') :
    Plain none r ∧ Reads (B := B) (.redirTail fd) b (l ++ .Whitespace w :: Y) a (r ++ .Whitespace w :: Y) b' := by
  have tl : ∀ {t : Token} {l}, Plain none (t :: l) → Plain none l := fun h => h.suffix (v := [_])
  have ne : ∀ {b b' : B.State} {l k r}, Reads (B := B) (.rawWord none) b l (some k) r b' → l ≠ [] := by
    rintro b b' l k r h rfl
    generalize e : some k = o at h
    cases h with
    | noWord => cases e
    | someWord h1 h2 h3 =>
      have h4 := h1.le
      cases h3 with
      | endWord => cases e
      | endEscaped => simp at h4
      | endBackslash => simp at h4
      | consPiece _ h => have h5 := h.piece_lt; simp only [List.length_nil] at h4; omega
  cases h with
  | redirPath h1 h2 h3 h4 h5 =>
    obtain ⟨hx2, g⟩ := rawWord_ext w Y (h2.plain (tl hx)) h3
    exact ⟨hx2, .redirPath h1 (skip_extend h2 (tl hx) (ne h3)) g h4 h5⟩
  | redirDupDash h1 h2 h3 h4 h5 =>
    exact ⟨tl (h2.plain (tl hx)), .redirDupDash h1 (skip_extend (Y := .Whitespace w :: Y) h2 (tl hx) (by simp)) (endsWord_ext h3) h4 h5⟩
  | redirDup h1 h2 h3 h4 h5 h6 h7 =>
    obtain ⟨hx2, g⟩ := rawWord_ext w Y (h2.plain (tl hx)) h4
    refine ⟨hx2, .redirDup h1 (skip_extend h2 (tl hx) (ne h4)) ?_ g h5 h6 h7⟩
    intro r e he
    obtain ⟨t, l', rfl⟩ := List.exists_cons_of_ne_nil (ne h4)
    simp at e
    obtain ⟨rfl, rfl⟩ := e
    refine h3 _ rfl fun t q e => ?_
    subst e
    exact he t _ rfl
  | redirHeredoc h =>
    cases h with
    | heredocQuoted h => exact absurd h (here_plain hx)
    | heredoc h => exact absurd h (here_plain hx)

theorem rawWord_none {b b' : B.State} (h : Reads (B := B) (.rawWord none) b l none r b') :
    b' = b ∧ Skip l r ∧ ((∃ q, r = .Pound :: q) ∨ (∀ q, r ≠ .Pound :: q) ∧ EndsWord r) ∨ r = [] ∧ Skip l [.Backslash] := by
  generalize e : (none : Option (ComplexWordKind B.Command)) = o at h
  cases h with
  | noWord h => exact .inl ⟨rfl, h, .inl ⟨_, rfl⟩⟩
  | someWord h1 h2 h3 =>
    rename_i l' ws
    obtain rfl : ws = [] := by
      rcases ws with _ | ⟨k, _ | _⟩ <;> simp [wordOf] at e ⊢
    cases h3 with
    | endWord h => exact .inl ⟨rfl, h1, .inr ⟨h2, h⟩⟩
    | endEscaped => exact absurd rfl (h1.noBlank.2 _)
    | endBackslash => exact .inr ⟨rfl, h1⟩

theorem rawWord_none_ext {t : Token} {b b' : B.State} (w : Str) (Y : List Token) (hx : Plain none l) (h : Reads (B := B) (.rawWord none) b l none (t :: r) b') :
    Reads (B := B) (.rawWord none) b (l ++ .Whitespace w :: Y) none (t :: r ++ .Whitespace w :: Y) b' := by
  rcases rawWord_none h with ⟨rfl, h1, h2⟩ | ⟨h1, -⟩
  · have h3 := skip_extend (Y := .Whitespace w :: Y) h1 hx (by simp)
    rcases h2 with ⟨q, e⟩ | ⟨h4, h5⟩
    · cases e
      exact .noWord h3
    · refine .someWord (ws := []) h3 ?_ (.endWord (endsWord_ext h5))
      intro q e
      simp at e
      exact h4 r (by rw [e.1])
  · cases h1

/-- A word or a redirection is read in the same way before a blank. -/
theorem redirect_ext {a} (w : Str) (Y : List Token) (hx : Plain none l) (h : Reads (B := B) .redirect b l (some a) r b') :
    Plain none r ∧ Reads (B := B) .redirect b (l ++ .Whitespace w :: Y) (some a) (r ++ .Whitespace w :: Y) b' := by
  cases h with
  | redirect h1 h2 h3 =>
    rcases rawWord_none h1 with ⟨-, h4, -⟩ | ⟨h4, -⟩
    case inr => cases h4
    obtain ⟨hx2, g⟩ := redirTail_ext w Y (h4.plain hx) h3
    exact ⟨hx2, .redirect (rawWord_none_ext w Y hx h1) h2 g⟩
  | redirectFd h1 h2 h3 h4 =>
    obtain ⟨hx1, g1⟩ := rawWord_ext w Y hx h1
    obtain ⟨hx2, g⟩ := redirTail_ext w Y hx1 h4
    exact ⟨hx2, .redirectFd g1 h2 h3 g⟩
  | redirectWord h1 h2 h3 =>
    obtain ⟨hx1, g1⟩ := rawWord_ext w Y hx h1
    refine ⟨hx1, .redirectWord g1 (fun hf t q e => ?_) h3⟩
    cases r with
    | nil => simp at e; rw [← e.1]; simp [redirOps]
    | cons x r => simp at e; exact h2 hf t r (by rw [e.1])

/-! ## Blanks before something are skipped -/

theorem skip_blanks {bs : List Token} (hb : Blanks bs) (h : Skip l r) : Skip (bs ++ l) r := by
  obtain ⟨cs, rfl, h1, h2⟩ := h
  refine ⟨bs ++ cs, by simp, ?_, h2⟩
  induction hb with
  | nil => exact h1
  | ws _ ih => exact .ws ih
  | escaped _ ih => exact .escaped ih

theorem rawWord_blanks {o} {bs : List Token} (hb : Blanks bs) (h : Reads (B := B) (.rawWord none) b l o r b') :
    Reads (B := B) (.rawWord none) b (bs ++ l) o r b' := by
  cases h with
  | noWord h => exact .noWord (skip_blanks hb h)
  | someWord h1 h2 h3 => exact .someWord (skip_blanks hb h1) h2 h3

theorem redirect_blanks {o} {bs : List Token} (hb : Blanks bs) (h : Reads (B := B) .redirect b l o r b') :
    Reads (B := B) .redirect b (bs ++ l) o r b' := by
  cases h with
  | redirect h1 h2 h3 => exact .redirect (rawWord_blanks hb h1) h2 h3
  | redirectFd h1 h2 h3 h4 => exact .redirectFd (rawWord_blanks hb h1) h2 h3 h4
  | redirectWord h1 h2 h3 => exact .redirectWord (rawWord_blanks hb h1) h2 h3
  | noRedirect h1 h2 => exact .noRedirect (rawWord_blanks hb h1) h2

theorem args_blanks {as} {bs : List Token} (hb : Blanks bs) (h : Reads (B := B) .args b l as r b') :
    Reads (B := B) .args b (bs ++ l) as r b' := by
  cases h with
  | argsRedirect h1 h2 => exact .argsRedirect (redirect_blanks hb h1) h2
  | argsWord h1 h2 => exact .argsWord (redirect_blanks hb h1) h2
  | argsEnd h1 => exact .argsEnd (redirect_blanks hb h1)

theorem assigns_blanks {x} {bs : List Token} (hb : Blanks bs) (h : Reads (B := B) .assigns b l x r b') :
    Reads (B := B) .assigns b (bs ++ l) x r b' := by
  cases h with
  | assignEmpty h1 h2 => exact .assignEmpty (skip_blanks hb h1) h2
  | assign h1 h2 h3 h4 => exact .assign (skip_blanks hb h1) h2 h3 h4
  | assignsRedirect h1 h2 h3 h4 => exact .assignsRedirect (skip_blanks hb h1) h2 h3 h4
  | assignsWord h1 h2 h3 => exact .assignsWord (skip_blanks hb h1) h2 h3
  | assignsEnd h1 h2 h3 => exact .assignsEnd (skip_blanks hb h1) h2 h3

theorem redirects_blanks {x} {bs : List Token} (hb : Blanks bs) (h : Reads (B := B) .redirects b l x r b') :
    Reads (B := B) .redirects b (bs ++ l) x r b' := by
  cases h with
  | redirectsNil h1 h2 => exact .redirectsNil (skip_blanks hb h1) h2
  | redirectsCons h1 h2 h3 => exact .redirectsCons (skip_blanks hb h1) h2 h3

/-! ## More at the end -/

theorem rawWord_nil {k} {b b' : B.State} : ¬ Reads (B := B) (.rawWord none) b [] (some k) r b' := by
  intro h
  generalize e : some k = o at h
  cases h with
  | noWord => cases e
  | someWord h1 h2 h3 =>
    have h4 := h1.le
    cases h3 with
    | endWord => cases e
    | endEscaped => simp at h4
    | endBackslash => simp at h4
    | consPiece _ h => have h5 := h.piece_lt; simp only [List.length_nil] at h4; omega

theorem redirect_nil {a} {b b' : B.State} : ¬ Reads (B := B) .redirect b [] (some a) r b' := by
  intro h
  cases h with
  | redirect h1 =>
    rcases rawWord_none h1 with ⟨-, h4, -⟩ | ⟨h4, -⟩
    · have := h4.le; simp at this
    · cases h4
  | redirectFd h1 => exact rawWord_nil h1
  | redirectWord h1 => exact rawWord_nil h1

/-- Nothing is read only of nothing. -/
theorem redirect_over {b b' : B.State} (hx : Plain none l) (h : Reads (B := B) .redirect b l none [] b') : b' = b ∧ Blanks l := by
  cases h with
  | noRedirect h1 h2 =>
    rcases rawWord_none h1 with ⟨rfl, ⟨bs, rfl, h3, -⟩, -⟩ | ⟨-, ⟨bs, rfl, h3, -⟩⟩
    · exact ⟨rfl, by simpa using h3⟩
    · exact absurd rfl (hx.suffix (v := bs)).last

/-- More arguments. -/
theorem args_ext {as as' : List (RedirectOrCmdWord B.Redirect B.Word)} {Y : List Token} (w : Str) {b b' b'' : B.State} (hx : Plain none l)
    (h : Reads (B := B) .args b l as [] b') (hY : Reads (B := B) .args b' Y as' r b'') :
    Reads (B := B) .args b (l ++ .Whitespace w :: Y) (as ++ as') r b'' := by
  induction as generalizing l b with
  | nil =>
    cases h with
    | argsEnd h =>
      obtain ⟨rfl, h1⟩ := redirect_over hx h
      exact args_blanks h1 (args_blanks (bs := [.Whitespace w]) (.ws .nil) hY)
  | cons a as ih =>
    cases h with
    | argsRedirect h1 h2 =>
      obtain ⟨hx1, g⟩ := redirect_ext w Y hx h1
      exact .argsRedirect g (ih hx1 h2)
    | argsWord h1 h2 =>
      obtain ⟨hx1, g⟩ := redirect_ext w Y hx h1
      exact .argsWord g (ih hx1 h2)

/-- More redirections. -/
theorem redirects_ext {as as' : List B.Redirect} {Y : List Token} (w : Str) {b b' b'' : B.State} (hx : Plain none l)
    (h : Reads (B := B) .redirects b l as [] b') (hY : Reads (B := B) .redirects b' Y as' r b'') :
    Reads (B := B) .redirects b (l ++ .Whitespace w :: Y) (as ++ as') r b'' := by
  induction as generalizing l b with
  | nil =>
    cases h with
    | redirectsNil h1 h =>
      obtain ⟨rfl, h2⟩ := redirect_over (h1.plain hx) h
      obtain ⟨bs, rfl, h3, -⟩ := h1
      rw [List.append_assoc]
      exact redirects_blanks h3 (redirects_blanks h2 (redirects_blanks (bs := [.Whitespace w]) (.ws .nil) hY))
  | cons a as ih =>
    cases h with
    | redirectsCons h0 h1 h2 =>
      obtain ⟨hx1, g⟩ := redirect_ext w Y (h0.plain hx) h1
      refine .redirectsCons (skip_extend h0 hx ?_) g (ih hx1 h2)
      rintro rfl
      exact redirect_nil h1

/-- The last token is neither a blank nor a newline. -/
def Firm (l : List Token) : Prop := ∀ v t, l = v ++ [t] → t ≠ .Newline ∧ ∀ w, t ≠ .Whitespace w

theorem Firm.suffix {v : List Token} (h : Firm (v ++ l)) : Firm l := by
  rintro u t rfl
  exact h (v ++ u) t (by simp)

theorem Firm.blanks {bs : List Token} (h : Firm bs) (hb : Blanks bs) : bs = [] := by
  induction hb with
  | nil => rfl
  | ws hb ih =>
    obtain rfl := ih (Firm.suffix (v := [_]) h)
    exact absurd rfl ((h [] _ rfl).2 _)
  | escaped hb ih =>
    obtain rfl := ih (Firm.suffix (v := [_, _]) h)
    exact absurd rfl (h [.Backslash] _ rfl).1

/-- What is left is the end of the input. -/
theorem derives_suffix {m : Method} (hm : m.InGrammar) {a : m.Ret B.toBTypes} (hx : Plain none l) (h : Derives m (B := B) b l a r b') :
    ∃ v, l = v ++ r := by
  have h1 : Parses m (parserOn l b) a r b' := by
    rw [C31_parser_exact m hm, PSt.tokens, parserOn_rest]
    exact h
  obtain ⟨-, v, hv⟩ := History.suffix (.ok m (Prod.ext h1.1 rfl) .nil) (s := parserOn l b) (s' := (m.run (parserOn l b)).2) (by
    intro x hx' hd
    have := hx.noHere rfl x.2 (by
      rw [← parserOn_rest (B := B) l b]
      exact List.mem_map_of_mem hx')
    rcases hd with hd | hd <;> rw [hd] at this <;> simp at this)
  refine ⟨v.map (·.2), ?_⟩
  rw [← parserOn_rest (B := B) l b, ← hv, List.map_append, h1.2.1]

/-- The value of a variable; after it blanks are skipped. -/
theorem word_ext {o} (w : Str) (Y : List Token) (hx : Plain none l) (hf : Firm l) (hne : l ≠ []) (hY : NoBlank Y) (h : Reads (B := B) .word b l o r b') :
    Plain none r ∧ Firm r ∧ ∃ r', Reads (B := B) .word b (l ++ .Whitespace w :: Y) o r' b' ∧ (r' = r ++ .Whitespace w :: Y ∨ r = [] ∧ r' = Y) := by
  have fin : ∀ {r1 : List Token}, Plain none r1 → Skip r1 r → ∃ r', Skip (r1 ++ .Whitespace w :: Y) r' ∧
      (r' = r ++ .Whitespace w :: Y ∨ r = [] ∧ r' = Y) := by
    intro r1 hx1 h1
    by_cases hr : r = []
    · subst hr
      obtain ⟨bs, rfl, h2, -⟩ := h1
      simp only [List.append_nil]
      exact ⟨Y, skip_blanks h2 (skip_blanks (bs := [.Whitespace w]) (.ws .nil) ⟨[], rfl, .nil, hY⟩), by simp⟩
    · exact ⟨_, skip_extend h1 hx1 hr, .inl rfl⟩
  have hfr : Firm r := by
    obtain ⟨v, rfl⟩ := derives_suffix (m := .word) trivial hx h
    exact hf.suffix
  cases h with
  | word h1 h2 =>
    cases h1 with
    | wordPSome h3 h4 =>
      obtain ⟨hx1, g⟩ := rawWord_ext w Y hx h3
      obtain ⟨r', h5, h6⟩ := fin hx1 h2
      exact ⟨h2.plain hx1, hfr, r', .word (.wordPSome g h4) h5, h6⟩
    | wordPNone h3 =>
      rename_i r1
      obtain ⟨rfl, ⟨bs, rfl, h4, h5⟩, h6⟩ | ⟨-, ⟨bs, rfl, -, -⟩⟩ := rawWord_none h3
      · obtain ⟨r', h7, h8⟩ := fin hx.suffix h2
        refine ⟨h2.plain hx.suffix, hfr, r', .word (.wordPNone ?_) h7, h8⟩
        cases r1 with
        | nil =>
          simp only [List.append_nil] at *
          exact absurd (hf.blanks h4) hne
        | cons t q => simpa using rawWord_none_ext w Y hx h3
      · exact absurd rfl (hx.suffix (v := bs)).last

theorem assignStart_ext {w : Str} {Y : List Token} (hne : l ≠ []) (h : ¬ AssignStart l) : ¬ AssignStart (l ++ .Whitespace w :: Y) := by
  rintro ⟨x, q, e⟩
  rcases l with _ | ⟨t, _ | ⟨u, l⟩⟩
  · exact hne rfl
  · simp at e
  · simp at e
    exact h ⟨x, l, by rw [e.1, e.2.1]⟩

theorem assigns_nil {vs : List (RedirectOrEnvVar B.Redirect Str B.Word)} (h : Reads (B := B) .assigns b [] (vs, none) r b') : vs = [] ∧ b' = b := by
  have no : ∀ {t q}, ¬ Skip [] (t :: q) := by
    intro t q h
    have := h.le
    simp at this
  have nil : ∀ {q}, Skip [] q → q = [] := fun h => List.length_eq_zero_iff.1 (Nat.le_zero.1 h.le)
  cases h with
  | assignEmpty h1 => exact absurd h1 no
  | assign h1 => exact absurd h1 no
  | assignsRedirect h1 _ h3 =>
    obtain rfl := nil h1
    exact absurd h3 redirect_nil
  | assignsEnd h1 _ h3 =>
    obtain rfl := nil h1
    cases h3 with
    | noRedirect h4 =>
      obtain ⟨rfl, -⟩ | ⟨-, h5⟩ := rawWord_none h4
      · exact ⟨rfl, rfl⟩
      · exact absurd h5 no

/-- More assignments and redirections before the command. -/
theorem assigns_ext {vs : List (RedirectOrEnvVar B.Redirect Str B.Word)} {x : List (RedirectOrEnvVar B.Redirect Str B.Word) × Option B.Word}
    {Y : List Token} (w : Str) {b b' b'' : B.State} (hx : Plain none l) (hf : Firm l) (hY : NoBlank Y)
    (h : Reads (B := B) .assigns b l (vs, none) [] b') (g : Reads (B := B) .assigns b' Y x r b'') :
    Reads (B := B) .assigns b (l ++ .Whitespace w :: Y) (vs ++ x.1, x.2) r b'' := by
  induction vs generalizing l b with
  | nil =>
    cases h with
    | assignsEnd h1 h2 h3 =>
      obtain ⟨rfl, h4⟩ := redirect_over (h1.plain hx) h3
      obtain ⟨bs, rfl, h5, -⟩ := h1
      rw [List.append_assoc]
      exact assigns_blanks h5 (assigns_blanks h4 (assigns_blanks (bs := [.Whitespace w]) (.ws .nil) g))
  | cons v vs ih =>
    cases h with
    | assignEmpty h1 h2 =>
      have h3 := skip_extend (Y := .Whitespace w :: Y) h1 hx (by simp)
      have hx1 := (h1.plain hx).suffix (v := [_, _])
      obtain ⟨bs, rfl, -⟩ := h1
      exact .assignEmpty h3 (ih hx1 ((hf.suffix).suffix (v := [_, _])) h2)
    | assign h1 h2 h3 h4 =>
      rename_i l' l2 b1 o
      have h5 := skip_extend (Y := .Whitespace w :: Y) h1 hx (by simp)
      have hx1 := (h1.plain hx).suffix (v := [_, _])
      obtain ⟨bs, rfl, -⟩ := h1
      have hf1 : Firm l' := (hf.suffix).suffix (v := [_, _])
      by_cases hne : l' = []
      · subst hne
        cases h3 with
        | word h6 h7 =>
          cases h6 with
          | wordPSome h8 => exact absurd h8 rawWord_nil
          | wordPNone h8 =>
            obtain ⟨rfl, h9, -⟩ | ⟨-, h9⟩ := rawWord_none h8
            · obtain rfl := List.length_eq_zero_iff.1 (Nat.le_zero.1 h9.le)
              obtain rfl := List.length_eq_zero_iff.1 (Nat.le_zero.1 h7.le)
              exact .assignEmpty h5 (ih .nil hf1 h4)
            · have := h9.le
              simp at this
      · obtain ⟨hx2, hf2, r', h6, rfl | ⟨rfl, rfl⟩⟩ := word_ext w Y hx1 hf1 hne hY h3
        · refine .assign h5 ?_ h6 (ih hx2 hf2 h4)
          obtain ⟨t, l', rfl⟩ := List.exists_cons_of_ne_nil hne
          rintro u q e
          simp at e
          exact h2 u l' (by rw [e.1])
        · refine .assign h5 ?_ h6 ?_
          · obtain ⟨t, l', rfl⟩ := List.exists_cons_of_ne_nil hne
            rintro u q e
            simp at e
            exact h2 u l' (by rw [e.1])
          · obtain ⟨rfl, rfl⟩ := assigns_nil h4
            exact g
    | assignsRedirect h1 h2 h3 h4 =>
      obtain ⟨v, e⟩ := derives_suffix (m := .redirect) trivial (h1.plain hx) h3
      obtain ⟨hx2, g2⟩ := redirect_ext w Y (h1.plain hx) h3
      have h5 := skip_extend (Y := .Whitespace w :: Y) h1 hx (by rintro rfl; exact redirect_nil h3)
      refine .assignsRedirect h5 (assignStart_ext (by rintro rfl; exact redirect_nil h3) h2) g2 (ih hx2 ?_ h4)
      obtain ⟨bs, rfl, -⟩ := h1
      subst e
      exact hf.suffix.suffix

/-! ## The start of a command -/

theorem endsWord_of_ext {w : Str} {Y : List Token} (h : EndsWord (l ++ .Whitespace w :: Y)) : EndsWord l := by
  rintro t q rfl
  exact h t _ rfl

theorem keyword_ext {v : Str} {w : Str} {Y : List Token} (h : Keyword v l r) : Keyword v (l ++ .Whitespace w :: Y) (r ++ .Whitespace w :: Y) := by
  obtain ⟨rfl | rfl, h2⟩ := h
  · exact ⟨.inl rfl, endsWord_ext h2⟩
  · exact ⟨.inr rfl, endsWord_ext h2⟩

theorem keyword_of_ext {v : Str} {w : Str} {Y q : List Token} (h : Keyword v (l ++ .Whitespace w :: Y) q) : ∃ r, Keyword v l r := by
  obtain ⟨h1, h2⟩ := h
  cases l with
  | nil => simp at h1
  | cons t l =>
    rcases h1 with h1 | h1
    · simp at h1; obtain ⟨rfl, rfl⟩ := h1; exact ⟨l, .inl rfl, endsWord_of_ext h2⟩
    · simp at h1; obtain ⟨rfl, rfl⟩ := h1; exact ⟨l, .inr rfl, endsWord_of_ext h2⟩

theorem compoundStart_ext {k : CompoundKw} {w : Str} {Y : List Token} (h : CompoundStart l k) : CompoundStart (l ++ .Whitespace w :: Y) k := by
  cases h with
  | subshell => exact .subshell
  | brace he => exact .brace (endsWord_ext he)
  | forKw hk => exact .forKw (keyword_ext hk)
  | caseKw hk => exact .caseKw (keyword_ext hk)
  | ifKw hk => exact .ifKw (keyword_ext hk)
  | whileKw hk => exact .whileKw (keyword_ext hk)
  | untilKw hk => exact .untilKw (keyword_ext hk)

theorem compoundStart_of_ext {k : CompoundKw} {w : Str} {Y : List Token} (h : CompoundStart (l ++ .Whitespace w :: Y) k) : CompoundStart l k := by
  generalize e : l ++ .Whitespace w :: Y = l0 at h
  cases h with
  | subshell => cases l with
    | nil => simp at e
    | cons t l => simp at e; rw [e.1]; exact .subshell
  | brace he => cases l with
    | nil => simp at e
    | cons t l => simp at e; obtain ⟨rfl, rfl⟩ := e; exact .brace (endsWord_of_ext he)
  | forKw hk => subst e; obtain ⟨q, h2⟩ := keyword_of_ext hk; exact .forKw h2
  | caseKw hk => subst e; obtain ⟨q, h2⟩ := keyword_of_ext hk; exact .caseKw h2
  | ifKw hk => subst e; obtain ⟨q, h2⟩ := keyword_of_ext hk; exact .ifKw h2
  | whileKw hk => subst e; obtain ⟨q, h2⟩ := keyword_of_ext hk; exact .whileKw h2
  | untilKw hk => subst e; obtain ⟨q, h2⟩ := keyword_of_ext hk; exact .untilKw h2

theorem functionStart_ext {w : Str} {Y : List Token} (h : FunctionStart l) : FunctionStart (l ++ .Whitespace w :: Y) := by
  cases h with
  | keyword hk => exact .keyword (keyword_ext hk)
  | paren => exact .paren
  | wsParen => exact .wsParen

theorem functionStart_of_ext {w : Str} {Y : List Token} (hY : ∀ q, Y ≠ .ParenOpen :: q) (h : FunctionStart (l ++ .Whitespace w :: Y)) : FunctionStart l := by
  generalize e : l ++ .Whitespace w :: Y = l0 at h
  cases h with
  | keyword hk => subst e; obtain ⟨q, h2⟩ := keyword_of_ext hk; exact .keyword h2
  | paren =>
    rcases l with _ | ⟨a, _ | ⟨b, l⟩⟩ <;> simp at e
    obtain ⟨rfl, rfl, -⟩ := e
    exact .paren
  | wsParen =>
    rcases l with _ | ⟨a, _ | ⟨b, _ | ⟨c, l⟩⟩⟩ <;> simp at e
    · exact absurd e.2.2 (hY _)
    · obtain ⟨rfl, rfl, rfl, -⟩ := e
      exact .wsParen

/-- What leaves something is read in the same way before a blank. -/
theorem loose_ext {n : NT} {a : n.Res B} (w : Str) (Y : List Token) (hp : n.Proper) (hs : n.slack a ≤ 1) (hr : r ≠ [])
    (hx : Plain none l) (h : Reads n b l a r b') :
    Plain none r ∧ Reads n b (l ++ .Whitespace w :: Y) a (r ++ .Whitespace w :: Y) b' := by
  have hr1 := List.length_pos_iff.2 hr
  obtain ⟨r1, ⟨x1, hx1, e1, e2⟩, h1⟩ := h.nlEnd (c := false) hp (l ++ [.Newline]) ⟨l, hx, by simp [nlIf], by simp [nlIf]⟩ (by simp; omega)
  simp only [nlIf, Bool.false_eq_true, if_false, List.append_nil, Bool.not_false, if_true] at e1 e2
  subst e1 e2
  obtain ⟨r2, e, h2⟩ := h1.cmEnd (w0 := w) (T := [.Newline]) hp (l ++ .Whitespace w :: [.Newline])
    ⟨⟨[], .inr rfl⟩, .inl ⟨l, hx, rfl, rfl⟩⟩ (by simp; omega)
  obtain ⟨-, ⟨x, -, e1, rfl⟩ | ⟨-, e1, -⟩⟩ := e
  · obtain rfl := (List.append_inj' e1 rfl).1
    obtain ⟨r3, ⟨x, -, e1, rfl⟩, h3⟩ := h2.blEnd (w0 := w) (Y := Y) hp (l ++ .Whitespace w :: Y) ⟨l, hx, by simp, by simp⟩ (by simp)
    obtain rfl := (List.append_inj' e1 rfl).1
    exact ⟨hx1, h3⟩
  · simp at e1; exact absurd e1 hr

end

/-! ## Trees -/

section
variable {l r : List Token} {b b' b'' : DefaultBuilder.State}

/-- A redirection after a compound command. -/
theorem compound_ext {kw c} {rs : List (Redirect Spec.SWord)} {Y : List Token} (w : Str) (hx : Gram.Plain none l)
    (h : Reads (B := DefaultBuilder) (.compound kw) b l c [] b') (hY : Reads (B := DefaultBuilder) .redirects b' Y rs [] b'') :
    Reads (B := DefaultBuilder) (.compound kw) b (l ++ .Whitespace w :: Y) ⟨c.kind, c.io ++ rs⟩ [] b'' := by
  cases h with
  | compoundIf h1 h2 h3 =>
    obtain rfl := calls_eq h3 rfl
    obtain ⟨hx1, g⟩ := tight_ext (n := .ifCommand) w Y trivial rfl rfl hx h1
    exact .compoundIf g (redirects_ext w hx1 h2 hY) rfl
  | @compoundLoop _ _ _ k _ _ _ _ _ _ _ _ h0 h1 h2 h3 =>
    obtain ⟨hx1, g⟩ := tight_ext (n := .loopCommand) w Y trivial rfl rfl hx h1
    cases k with
    | While => obtain rfl := calls_eq h3 rfl; exact .compoundLoop h0 g (redirects_ext w hx1 h2 hY) rfl
    | Until => obtain rfl := calls_eq h3 rfl; exact .compoundLoop h0 g (redirects_ext w hx1 h2 hY) rfl
  | compoundFor h1 h2 h3 =>
    obtain rfl := calls_eq h3 rfl
    obtain ⟨hx1, g⟩ := tight_ext (n := .forCommand) w Y trivial rfl rfl hx h1
    exact .compoundFor g (redirects_ext w hx1 h2 hY) rfl
  | compoundCase h1 h2 h3 =>
    obtain rfl := calls_eq h3 rfl
    obtain ⟨hx1, g⟩ := tight_ext (n := .caseCommand) w Y trivial rfl rfl hx h1
    exact .compoundCase g (redirects_ext w hx1 h2 hY) rfl
  | compoundBrace h1 h2 h3 =>
    obtain rfl := calls_eq h3 rfl
    obtain ⟨hx1, g⟩ := tight_ext (n := .brace) w Y trivial rfl rfl hx h1
    exact .compoundBrace g (redirects_ext w hx1 h2 hY) rfl
  | compoundSubshell h1 h2 h3 =>
    obtain rfl := calls_eq h3 rfl
    obtain ⟨hx1, g⟩ := tight_ext (n := (.subshell _)) w Y trivial rfl rfl hx h1
    exact .compoundSubshell g (redirects_ext w hx1 h2 hY) rfl

end
end Conch.Gram
