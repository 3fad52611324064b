import Verif.SyntaxTree
/-!
# The equations of the definitions of `SyntaxTree` (C39)
-/
namespace Conch.Spec
open Conch

theorem text_param (p : Parameter Str) :
    (Syn.param p).text = ("${".toList ++ paramText p ++ ['}']) := rfl
theorem text_len (p : Parameter Str) :
    (Syn.len p).text = ("${#".toList ++ paramText p ++ ['}']) := rfl
theorem text_subst (op : SubstOp) (p : Parameter Str) (w : Syn .parts) :
    (Syn.subst op p w).text = ("${".toList ++ paramText p ++ op.text ++ w.text ++ ['}']) := rfl
theorem text_cmdSubst (cs : Syn .commands) :
    (Syn.cmdSubst cs).text = ("$( ".toList ++ cs.text ++ [')']) := rfl
theorem text_arith (a : DefaultArithmetic) :
    (Syn.arith a).text = ("$(( ".toList ++ arithText a ++ " ))".toList) := rfl
theorem text_dnil  :
    (Syn.dnil).text = ([]) := rfl
theorem text_dtext (s : Str) (r : Syn .dparts) :
    (Syn.dtext s r).text = (s ++ r.text) := rfl
theorem text_desc (c : Char) (r : Syn .dparts) :
    (Syn.desc c r).text = ('\\' :: c :: r.text) := rfl
theorem text_dexp (e : Syn .exp) (r : Syn .dparts) :
    (Syn.dexp e r).text = (e.text ++ r.text) := rfl
theorem text_nil  :
    (Syn.nil).text = ([]) := rfl
theorem text_lit (s : Str) (r : Syn .parts) :
    (Syn.lit s r).text = (s ++ r.text) := rfl
theorem text_esc (c : Char) (r : Syn .parts) :
    (Syn.esc c r).text = ('\\' :: c :: r.text) := rfl
theorem text_glob (g : Glob) (r : Syn .parts) :
    (Syn.glob g r).text = (g.text :: r.text) := rfl
theorem text_single (s : Str) (r : Syn .parts) :
    (Syn.single s r).text = ('\'' :: s ++ '\'' :: r.text) := rfl
theorem text_double (d : Syn .dparts) (r : Syn .parts) :
    (Syn.double d r).text = ('"' :: d.text ++ '"' :: r.text) := rfl
theorem text_exp (e : Syn .exp) (r : Syn .parts) :
    (Syn.exp e r).text = (e.text ++ r.text) := rfl
theorem text_wnil  :
    (Syn.wnil).text = ([]) := rfl
theorem text_wcons (w : Syn .parts) (ws : Syn .words) :
    (Syn.wcons w ws).text = (w.text ++ ' ' :: ws.text) := rfl
theorem text_file (fd : Option Nat) (op : FileOp) (w : Syn .parts) :
    (Syn.file fd op w).text = (fdOptText fd ++ op.text ++ ' ' :: w.text ++ [' ']) := rfl
theorem text_dup (fd : Option Nat) (op : DupOp) (n : Nat) :
    (Syn.dup fd op n).text = (fdOptText fd ++ op.text ++ ' ' :: natDigits n ++ [' ']) := rfl
theorem text_close (fd : Option Nat) (op : DupOp) :
    (Syn.close fd op).text = (fdOptText fd ++ op.text ++ " - ".toList) := rfl
theorem text_hereQuoted (fd : Option Nat) (body : Str) : (Syn.hereQuoted fd body).text = [] := rfl
theorem text_here (fd : Option Nat) (body : Syn .dparts) : (Syn.here fd body).text = [] := rfl
theorem text_rnil  :
    (Syn.rnil).text = ([]) := rfl
theorem text_rcons (r : Syn .redir) (rs : Syn .redirs) :
    (Syn.rcons r rs).text = (r.text ++ rs.text) := rfl
theorem text_pnil  :
    (Syn.pnil).text = ([]) := rfl
theorem text_passign (x : Str) (w : Syn .parts) (r : Syn .pres) :
    (Syn.passign x w r).text = (x ++ '=' :: w.text ++ ' ' :: r.text) := rfl
theorem text_predir (a : Syn .redir) (r : Syn .pres) :
    (Syn.predir a r).text = (a.text ++ r.text) := rfl
theorem text_anil  :
    (Syn.anil).text = ([]) := rfl
theorem text_aword (w : Syn .parts) (r : Syn .args) :
    (Syn.aword w r).text = (w.text ++ ' ' :: r.text) := rfl
theorem text_aredir (a : Syn .redir) (r : Syn .args) :
    (Syn.aredir a r).text = (a.text ++ r.text) := rfl
theorem text_brace (cs : Syn .commands) (io : Syn .redirs) :
    (Syn.brace cs io).text = ("{ ".toList ++ cs.text ++ "} ".toList ++ io.text) := rfl
theorem text_subshell (cs : Syn .commands) (io : Syn .redirs) :
    (Syn.subshell cs io).text = ("( ".toList ++ cs.text ++ ") ".toList ++ io.text) := rfl
theorem text_loop (k : LoopKind) (g : Syn .commands) (b : Syn .commands) (io : Syn .redirs) :
    (Syn.loop k g b io).text = (loopText k ++ g.text ++ "do ".toList ++ b.text ++ "done ".toList ++ io.text) := rfl
theorem text_if (f : Syn .ifs) (io : Syn .redirs) :
    (Syn.if_ f io).text = ("if ".toList ++ f.text ++ "fi ".toList ++ io.text) := rfl
theorem text_forIn (x : Str) (ws : Syn .words) (b : Syn .commands) (io : Syn .redirs) :
    (Syn.forIn x ws b io).text = ("for ".toList ++ x ++ " in ".toList ++ ws.text ++ "\ndo ".toList ++ b.text ++ "done ".toList ++ io.text) := rfl
theorem text_forArgs (x : Str) (b : Syn .commands) (io : Syn .redirs) :
    (Syn.forArgs x b io).text = ("for ".toList ++ x ++ "\ndo ".toList ++ b.text ++ "done ".toList ++ io.text) := rfl
theorem text_case (w : Syn .parts) (as : Syn .arms) (io : Syn .redirs) :
    (Syn.case_ w as io).text = ("case ".toList ++ w.text ++ " in\n".toList ++ as.text ++ "esac ".toList ++ io.text) := rfl
theorem text_fi (g : Syn .commands) (b : Syn .commands) :
    (Syn.fi g b).text = (g.text ++ "then ".toList ++ b.text) := rfl
theorem text_else (g : Syn .commands) (b : Syn .commands) (e : Syn .commands) :
    (Syn.else_ g b e).text = (g.text ++ "then ".toList ++ b.text ++ "else ".toList ++ e.text) := rfl
theorem text_elif (g : Syn .commands) (b : Syn .commands) (f : Syn .ifs) :
    (Syn.elif g b f).text = (g.text ++ "then ".toList ++ b.text ++ "elif ".toList ++ f.text) := rfl
theorem text_armsNil  :
    (Syn.armsNil).text = ([]) := rfl
theorem text_patLast (w : Syn .parts) :
    (Syn.patLast w).text = (w.text ++ [' ']) := rfl
theorem text_patCons (w : Syn .parts) (ps : Syn .pats) :
    (Syn.patCons w ps).text = (w.text ++ " | ".toList ++ ps.text) := rfl
theorem text_armsCons (ps : Syn .pats) (cs : Syn .commands) (r : Syn .arms) :
    (Syn.armsCons ps cs r).text = ("( ".toList ++ ps.text ++ ") ".toList ++ cs.text ++ ";;\n".toList ++ r.text) := rfl
theorem text_simple (pre : Syn .pres) (args : Syn .args) :
    (Syn.simple pre args).text = (pre.text ++ args.text) := rfl
theorem text_compound (c : Syn .comp) :
    (Syn.compound c).text = (c.text) := rfl
theorem text_function (x : Str) (c : Syn .comp) :
    (Syn.function x c).text = (x ++ "() ".toList ++ c.text) := rfl
theorem text_last (c : Syn .cmd) :
    (Syn.last c).text = (c.text) := rfl
theorem text_into (c : Syn .cmd) (r : Syn .pipe) :
    (Syn.into c r).text = (c.text ++ "| ".toList ++ r.text) := rfl
theorem text_pipeline (bang : Bool) (p : Syn .pipe) :
    (Syn.pipeline bang p).text = ((if bang then "! ".toList else []) ++ p.text) := rfl
theorem text_restNil  :
    (Syn.restNil).text = ([]) := rfl
theorem text_and (l : Syn .listable) (r : Syn .rest) :
    (Syn.and l r).text = ("&& ".toList ++ l.text ++ r.text) := rfl
theorem text_or (l : Syn .listable) (r : Syn .rest) :
    (Syn.or l r).text = ("|| ".toList ++ l.text ++ r.text) := rfl
theorem text_command (job : Bool) (l : Syn .listable) (r : Syn .rest) :
    (Syn.command job l r).text = (l.text ++ r.text ++ (if job then "&\n".toList else "\n".toList)) := rfl
theorem text_cnil  :
    (Syn.cnil).text = ([]) := rfl
theorem text_ccons (c : Syn .command) (cs : Syn .commands) :
    (Syn.ccons c cs).text = (c.text ++ cs.text) := rfl
theorem ast_param (p : Parameter Str) :
    (Syn.param p).ast = (.Param p) := rfl
theorem ast_len (p : Parameter Str) :
    (Syn.len p).ast = (.Subst (.Len p)) := rfl
theorem ast_subst (op : SubstOp) (p : Parameter Str) (w : Syn .parts) :
    (Syn.subst op p w).ast = (.Subst (op.ast p (optAst w.ast))) := rfl
theorem ast_cmdSubst (cs : Syn .commands) :
    (Syn.cmdSubst cs).ast = (.Subst (.Command cs.ast)) := rfl
theorem ast_arith (a : DefaultArithmetic) :
    (Syn.arith a).ast = (.Subst (.Arith (some a))) := rfl
theorem ast_dnil  :
    (Syn.dnil).ast = ([]) := rfl
theorem ast_dtext (s : Str) (r : Syn .dparts) :
    (Syn.dtext s r).ast = (.Literal s :: r.ast) := rfl
theorem ast_desc (c : Char) (r : Syn .dparts) :
    (Syn.desc c r).ast = (.Escaped [c] :: r.ast) := rfl
theorem ast_dexp (e : Syn .exp) (r : Syn .dparts) :
    (Syn.dexp e r).ast = (e.ast :: r.ast) := rfl
theorem ast_nil  :
    (Syn.nil).ast = ([]) := rfl
theorem ast_lit (s : Str) (r : Syn .parts) :
    (Syn.lit s r).ast = (.Simple (.Literal s) :: r.ast) := rfl
theorem ast_esc (c : Char) (r : Syn .parts) :
    (Syn.esc c r).ast = (.Simple (.Escaped [c]) :: r.ast) := rfl
theorem ast_glob (g : Glob) (r : Syn .parts) :
    (Syn.glob g r).ast = (.Simple g.ast :: r.ast) := rfl
theorem ast_single (s : Str) (r : Syn .parts) :
    (Syn.single s r).ast = (.SingleQuoted s :: r.ast) := rfl
theorem ast_double (d : Syn .dparts) (r : Syn .parts) :
    (Syn.double d r).ast = (.DoubleQuoted d.ast :: r.ast) := rfl
theorem ast_exp (e : Syn .exp) (r : Syn .parts) :
    (Syn.exp e r).ast = (.Simple e.ast :: r.ast) := rfl
theorem ast_wnil  :
    (Syn.wnil).ast = ([]) := rfl
theorem ast_wcons (w : Syn .parts) (ws : Syn .words) :
    (Syn.wcons w ws).ast = (wordAst w.ast :: ws.ast) := rfl
theorem ast_file (fd : Option Nat) (op : FileOp) (w : Syn .parts) :
    (Syn.file fd op w).ast = (op.ast fd (wordAst w.ast)) := rfl
theorem ast_dup (fd : Option Nat) (op : DupOp) (n : Nat) :
    (Syn.dup fd op n).ast = (op.ast fd (litAst (natDigits n))) := rfl
theorem ast_close (fd : Option Nat) (op : DupOp) :
    (Syn.close fd op).ast = (op.ast fd (litAst ['-'])) := rfl
theorem ast_hereQuoted (fd : Option Nat) (body : Str) : (Syn.hereQuoted fd body).ast = .Heredoc fd (litAst body) := rfl
theorem ast_here (fd : Option Nat) (body : Syn .dparts) : (Syn.here fd body).ast = .Heredoc fd (hereAst body.ast) := rfl
theorem ast_rnil  :
    (Syn.rnil).ast = ([]) := rfl
theorem ast_rcons (r : Syn .redir) (rs : Syn .redirs) :
    (Syn.rcons r rs).ast = (r.ast :: rs.ast) := rfl
theorem ast_pnil  :
    (Syn.pnil).ast = ([]) := rfl
theorem ast_passign (x : Str) (w : Syn .parts) (r : Syn .pres) :
    (Syn.passign x w r).ast = (.EnvVar x (optAst w.ast) :: r.ast) := rfl
theorem ast_predir (a : Syn .redir) (r : Syn .pres) :
    (Syn.predir a r).ast = (.Redirect a.ast :: r.ast) := rfl
theorem ast_anil  :
    (Syn.anil).ast = ([]) := rfl
theorem ast_aword (w : Syn .parts) (r : Syn .args) :
    (Syn.aword w r).ast = (.CmdWord (wordAst w.ast) :: r.ast) := rfl
theorem ast_aredir (a : Syn .redir) (r : Syn .args) :
    (Syn.aredir a r).ast = (.Redirect a.ast :: r.ast) := rfl
theorem ast_brace (cs : Syn .commands) (io : Syn .redirs) :
    (Syn.brace cs io).ast = (⟨.Brace cs.ast, io.ast⟩) := rfl
theorem ast_subshell (cs : Syn .commands) (io : Syn .redirs) :
    (Syn.subshell cs io).ast = (⟨.Subshell cs.ast, io.ast⟩) := rfl
theorem ast_loop_While (g : Syn .commands) (b : Syn .commands) (io : Syn .redirs) :
    (Syn.loop .While g b io).ast = (⟨.While ⟨g.ast, b.ast⟩, io.ast⟩) := rfl
theorem ast_loop_Until (g : Syn .commands) (b : Syn .commands) (io : Syn .redirs) :
    (Syn.loop .Until g b io).ast = (⟨.Until ⟨g.ast, b.ast⟩, io.ast⟩) := rfl
theorem ast_if (f : Syn .ifs) (io : Syn .redirs) :
    (Syn.if_ f io).ast = (⟨.If f.ast.1 f.ast.2, io.ast⟩) := rfl
theorem ast_forIn (x : Str) (ws : Syn .words) (b : Syn .commands) (io : Syn .redirs) :
    (Syn.forIn x ws b io).ast = (⟨.For x (some ws.ast) b.ast, io.ast⟩) := rfl
theorem ast_forArgs (x : Str) (b : Syn .commands) (io : Syn .redirs) :
    (Syn.forArgs x b io).ast = (⟨.For x none b.ast, io.ast⟩) := rfl
theorem ast_case (w : Syn .parts) (as : Syn .arms) (io : Syn .redirs) :
    (Syn.case_ w as io).ast = (⟨.Case (wordAst w.ast) as.ast, io.ast⟩) := rfl
theorem ast_fi (g : Syn .commands) (b : Syn .commands) :
    (Syn.fi g b).ast = (([⟨g.ast, b.ast⟩], none)) := rfl
theorem ast_else (g : Syn .commands) (b : Syn .commands) (e : Syn .commands) :
    (Syn.else_ g b e).ast = (([⟨g.ast, b.ast⟩], some e.ast)) := rfl
theorem ast_elif (g : Syn .commands) (b : Syn .commands) (f : Syn .ifs) :
    (Syn.elif g b f).ast = ((⟨g.ast, b.ast⟩ :: f.ast.1, f.ast.2)) := rfl
theorem ast_patLast (w : Syn .parts) :
    (Syn.patLast w).ast = ([wordAst w.ast]) := rfl
theorem ast_patCons (w : Syn .parts) (ps : Syn .pats) :
    (Syn.patCons w ps).ast = (wordAst w.ast :: ps.ast) := rfl
theorem ast_armsNil  :
    (Syn.armsNil).ast = ([]) := rfl
theorem ast_armsCons (ps : Syn .pats) (cs : Syn .commands) (r : Syn .arms) :
    (Syn.armsCons ps cs r).ast = (⟨ps.ast, cs.ast⟩ :: r.ast) := rfl
theorem ast_simple (pre : Syn .pres) (args : Syn .args) :
    (Syn.simple pre args).ast = (.Simple ⟨pre.ast, args.ast⟩) := rfl
theorem ast_compound (c : Syn .comp) :
    (Syn.compound c).ast = (.Compound c.ast) := rfl
theorem ast_function (x : Str) (c : Syn .comp) :
    (Syn.function x c).ast = (.FunctionDef x c.ast) := rfl
theorem ast_last (c : Syn .cmd) :
    (Syn.last c).ast = ([c.ast]) := rfl
theorem ast_into (c : Syn .cmd) (r : Syn .pipe) :
    (Syn.into c r).ast = (c.ast :: r.ast) := rfl
theorem ast_pipeline (bang : Bool) (p : Syn .pipe) :
    (Syn.pipeline bang p).ast = (pipeAst bang p.ast) := rfl
theorem ast_restNil  :
    (Syn.restNil).ast = ([]) := rfl
theorem ast_and (l : Syn .listable) (r : Syn .rest) :
    (Syn.and l r).ast = (.And l.ast :: r.ast) := rfl
theorem ast_or (l : Syn .listable) (r : Syn .rest) :
    (Syn.or l r).ast = (.Or l.ast :: r.ast) := rfl
theorem ast_command (job : Bool) (l : Syn .listable) (r : Syn .rest) :
    (Syn.command job l r).ast = (.mk (if job then .Job ⟨l.ast, r.ast⟩ else .List ⟨l.ast, r.ast⟩)) := rfl
theorem ast_cnil  :
    (Syn.cnil).ast = ([]) := rfl
theorem ast_ccons (c : Syn .command) (cs : Syn .commands) :
    (Syn.ccons c cs).ast = (c.ast :: cs.ast) := rfl
theorem Ok_param (cc : CharClass) {h : Bool} (p : Parameter Str) :
    (Syn.param p).Ok cc h = (ValidParam cc p) := rfl
theorem Ok_len (cc : CharClass) {h : Bool} (p : Parameter Str) :
    (Syn.len p).Ok cc h = (ValidParam cc p) := rfl
theorem Ok_subst (cc : CharClass) {h : Bool} (op : SubstOp) (p : Parameter Str) (w : Syn .parts) :
    (Syn.subst op p w).Ok cc h = (ValidParam cc p ∧ w.Ok cc h ∧ w.firstChar ≠ some '#' ∧ op.Fits p w) := rfl
theorem Ok_cmdSubst (cc : CharClass) {h : Bool} (cs : Syn .commands) :
    (Syn.cmdSubst cs).Ok cc h = (cs.Ok cc h) := rfl
theorem Ok_arith (cc : CharClass) {h : Bool} (a : DefaultArithmetic) :
    (Syn.arith a).Ok cc h = (ArithOk cc a) := rfl
theorem Ok_dnil (cc : CharClass) {h : Bool}  :
    (Syn.dnil).Ok cc h = (True) := rfl
theorem Ok_dtext (cc : CharClass) {h : Bool} (s : Str) (r : Syn .dparts) :
    (Syn.dtext s r).Ok cc h = (DqPlain s ∧ r.startsText = false ∧ r.Ok cc h) := rfl
theorem Ok_desc (cc : CharClass) {h : Bool} (c : Char) (r : Syn .dparts) :
    (Syn.desc c r).Ok cc h = (c ∈ "$`\"\\\n".toList ∧ r.Ok cc h) := rfl
theorem Ok_dexp (cc : CharClass) {h : Bool} (e : Syn .exp) (r : Syn .dparts) :
    (Syn.dexp e r).Ok cc h = (e.Ok cc h ∧ r.Ok cc h) := rfl
theorem Ok_nil (cc : CharClass) {h : Bool}  :
    (Syn.nil).Ok cc h = (True) := rfl
theorem Ok_lit (cc : CharClass) {h : Bool} (s : Str) (r : Syn .parts) :
    (Syn.lit s r).Ok cc h = (LitText cc s ∧ r.joint ≠ some .lit ∧ r.Ok cc h) := rfl
theorem Ok_esc (cc : CharClass) {h : Bool} (c : Char) (r : Syn .parts) :
    (Syn.esc c r).Ok cc h = (c ≠ '\n' ∧ r.Ok cc h) := rfl
theorem Ok_glob (cc : CharClass) {h : Bool} (u0 : Glob) (r : Syn .parts) :
    (Syn.glob u0 r).Ok cc h = (r.Ok cc h) := rfl
theorem Ok_single (cc : CharClass) {h : Bool} (s : Str) (r : Syn .parts) :
    (Syn.single s r).Ok cc h = ('\'' ∉ s ∧ r.joint ≠ some .single ∧ r.Ok cc h) := rfl
theorem Ok_double (cc : CharClass) {h : Bool} (d : Syn .dparts) (r : Syn .parts) :
    (Syn.double d r).Ok cc h = (d.noQuote = true ∧ d.Ok cc h ∧ r.joint ≠ some .double ∧ r.Ok cc h) := rfl
theorem Ok_exp (cc : CharClass) {h : Bool} (e : Syn .exp) (r : Syn .parts) :
    (Syn.exp e r).Ok cc h = (e.Ok cc h ∧ r.Ok cc h) := rfl
theorem Ok_wnil (cc : CharClass) {h : Bool}  :
    (Syn.wnil).Ok cc h = (True) := rfl
theorem Ok_wcons (cc : CharClass) {h : Bool} (w : Syn .parts) (ws : Syn .words) :
    (Syn.wcons w ws).Ok cc h = (w.IsWord ∧ w.Ok cc h ∧ ws.Ok cc h) := rfl
theorem Ok_file (cc : CharClass) {h : Bool} (fd : Option Nat) (u1 : FileOp) (w : Syn .parts) :
    (Syn.file fd u1 w).Ok cc h = ((∀ n, fd = some n → n ≤ 65535) ∧ w.IsWord ∧ w.Ok cc h) := rfl
theorem Ok_dup (cc : CharClass) {h : Bool} (fd : Option Nat) (u1 : DupOp) (u2 : Nat) :
    (Syn.dup fd u1 u2).Ok cc h = (∀ n, fd = some n → n ≤ 65535) := rfl
theorem Ok_close (cc : CharClass) {h : Bool} (fd : Option Nat) (u1 : DupOp) :
    (Syn.close fd u1).Ok cc h = (∀ n, fd = some n → n ≤ 65535) := rfl
theorem Ok_hereQuoted (cc : CharClass) {h : Bool} (fd : Option Nat) (body : Str) :
    (Syn.hereQuoted fd body).Ok cc h = (h = true ∧ ∀ n, fd = some n → n ≤ 65535) := rfl
theorem Ok_here (cc : CharClass) {h : Bool} (fd : Option Nat) (body : Syn .dparts) :
    (Syn.here fd body).Ok cc h = (h = true ∧ (∀ n, fd = some n → n ≤ 65535) ∧ body.Ok cc h) := rfl
theorem Ok_rnil (cc : CharClass) {h : Bool}  :
    (Syn.rnil).Ok cc h = (True) := rfl
theorem Ok_rcons (cc : CharClass) {h : Bool} (r : Syn .redir) (rs : Syn .redirs) :
    (Syn.rcons r rs).Ok cc h = (r.Ok cc h ∧ rs.Ok cc h) := rfl
theorem Ok_pnil (cc : CharClass) {h : Bool}  :
    (Syn.pnil).Ok cc h = (True) := rfl
theorem Ok_passign (cc : CharClass) {h : Bool} (x : Str) (w : Syn .parts) (r : Syn .pres) :
    (Syn.passign x w r).Ok cc h = (Shape cc (.Name x) ∧ w.firstChar ≠ some '#' ∧ w.Ok cc h ∧ r.Ok cc h) := rfl
theorem Ok_predir (cc : CharClass) {h : Bool} (a : Syn .redir) (r : Syn .pres) :
    (Syn.predir a r).Ok cc h = (a.Ok cc h ∧ r.Ok cc h) := rfl
theorem Ok_anil (cc : CharClass) {h : Bool}  :
    (Syn.anil).Ok cc h = (True) := rfl
theorem Ok_aword (cc : CharClass) {h : Bool} (w : Syn .parts) (r : Syn .args) :
    (Syn.aword w r).Ok cc h = (w.IsWord ∧ w.Ok cc h ∧ r.Ok cc h) := rfl
theorem Ok_aredir (cc : CharClass) {h : Bool} (a : Syn .redir) (r : Syn .args) :
    (Syn.aredir a r).Ok cc h = (a.Ok cc h ∧ r.Ok cc h) := rfl
theorem Ok_brace (cc : CharClass) {h : Bool} (cs : Syn .commands) (io : Syn .redirs) :
    (Syn.brace cs io).Ok cc h = (cs.noCommands = false ∧ cs.Ok cc h ∧ io.Ok cc h) := rfl
theorem Ok_subshell (cc : CharClass) {h : Bool} (cs : Syn .commands) (io : Syn .redirs) :
    (Syn.subshell cs io).Ok cc h = (cs.noCommands = false ∧ cs.Ok cc h ∧ io.Ok cc h) := rfl
theorem Ok_loop (cc : CharClass) {h : Bool} (u0 : LoopKind) (g : Syn .commands) (b : Syn .commands) (io : Syn .redirs) :
    (Syn.loop u0 g b io).Ok cc h = (g.noCommands = false ∧ b.noCommands = false ∧ g.Ok cc h ∧ b.Ok cc h ∧ io.Ok cc h) := rfl
theorem Ok_if (cc : CharClass) {h : Bool} (f : Syn .ifs) (io : Syn .redirs) :
    (Syn.if_ f io).Ok cc h = (f.Ok cc h ∧ io.Ok cc h) := rfl
theorem Ok_forIn (cc : CharClass) {h : Bool} (x : Str) (ws : Syn .words) (b : Syn .commands) (io : Syn .redirs) :
    (Syn.forIn x ws b io).Ok cc h = (Shape cc (.Name x) ∧ b.noCommands = false ∧ ws.Ok cc h ∧ b.Ok cc h ∧ io.Ok cc h) := rfl
theorem Ok_forArgs (cc : CharClass) {h : Bool} (x : Str) (b : Syn .commands) (io : Syn .redirs) :
    (Syn.forArgs x b io).Ok cc h = (Shape cc (.Name x) ∧ b.noCommands = false ∧ b.Ok cc h ∧ io.Ok cc h) := rfl
theorem Ok_case (cc : CharClass) {h : Bool} (w : Syn .parts) (as : Syn .arms) (io : Syn .redirs) :
    (Syn.case_ w as io).Ok cc h = (w.IsWord ∧ w.Ok cc h ∧ as.Ok cc h ∧ io.Ok cc h) := rfl
theorem Ok_fi (cc : CharClass) {h : Bool} (g : Syn .commands) (b : Syn .commands) :
    (Syn.fi g b).Ok cc h = (g.noCommands = false ∧ b.noCommands = false ∧ g.Ok cc h ∧ b.Ok cc h) := rfl
theorem Ok_else (cc : CharClass) {h : Bool} (g : Syn .commands) (b : Syn .commands) (e : Syn .commands) :
    (Syn.else_ g b e).Ok cc h = (g.noCommands = false ∧ b.noCommands = false ∧ e.noCommands = false ∧
      g.Ok cc h ∧ b.Ok cc h ∧ e.Ok cc h) := rfl
theorem Ok_elif (cc : CharClass) {h : Bool} (g : Syn .commands) (b : Syn .commands) (f : Syn .ifs) :
    (Syn.elif g b f).Ok cc h = (g.noCommands = false ∧ b.noCommands = false ∧ g.Ok cc h ∧ b.Ok cc h ∧ f.Ok cc h) := rfl
theorem Ok_patLast (cc : CharClass) {h : Bool} (w : Syn .parts) :
    (Syn.patLast w).Ok cc h = (w.IsWord ∧ w.Ok cc h) := rfl
theorem Ok_patCons (cc : CharClass) {h : Bool} (w : Syn .parts) (ps : Syn .pats) :
    (Syn.patCons w ps).Ok cc h = (w.IsWord ∧ w.Ok cc h ∧ ps.Ok cc h) := rfl
theorem Ok_armsNil (cc : CharClass) {h : Bool}  :
    (Syn.armsNil).Ok cc h = (True) := rfl
theorem Ok_armsCons (cc : CharClass) {h : Bool} (ps : Syn .pats) (cs : Syn .commands) (r : Syn .arms) :
    (Syn.armsCons ps cs r).Ok cc h = (ps.Ok cc h ∧ cs.Ok cc h ∧ r.Ok cc h) := rfl
theorem Ok_simple (cc : CharClass) {h : Bool} (pre : Syn .pres) (args : Syn .args) :
    (Syn.simple pre args).Ok cc h = (Syn.NonEmpty pre args ∧ args.StartsWord ∧ pre.Ok cc h ∧ args.Ok cc h) := rfl
theorem Ok_compound (cc : CharClass) {h : Bool} (c : Syn .comp) :
    (Syn.compound c).Ok cc h = (c.Ok cc h) := rfl
theorem Ok_function (cc : CharClass) {h : Bool} (x : Str) (c : Syn .comp) :
    (Syn.function x c).Ok cc h = (Shape cc (.Name x) ∧ x ∉ reservedWords ∧ c.Ok cc h) := rfl
theorem Ok_last (cc : CharClass) {h : Bool} (c : Syn .cmd) :
    (Syn.last c).Ok cc h = (c.Ok cc h) := rfl
theorem Ok_into (cc : CharClass) {h : Bool} (c : Syn .cmd) (r : Syn .pipe) :
    (Syn.into c r).Ok cc h = (c.Ok cc h ∧ r.Ok cc h) := rfl
theorem Ok_pipeline (cc : CharClass) {h : Bool} (u0 : Bool) (p : Syn .pipe) :
    (Syn.pipeline u0 p).Ok cc h = (p.Ok cc h) := rfl
theorem Ok_restNil (cc : CharClass) {h : Bool}  :
    (Syn.restNil).Ok cc h = (True) := rfl
theorem Ok_and (cc : CharClass) {h : Bool} (l : Syn .listable) (r : Syn .rest) :
    (Syn.and l r).Ok cc h = (l.Ok cc h ∧ r.Ok cc h) := rfl
theorem Ok_or (cc : CharClass) {h : Bool} (l : Syn .listable) (r : Syn .rest) :
    (Syn.or l r).Ok cc h = (l.Ok cc h ∧ r.Ok cc h) := rfl
theorem Ok_command (cc : CharClass) {h : Bool} (u0 : Bool) (l : Syn .listable) (r : Syn .rest) :
    (Syn.command u0 l r).Ok cc h = (l.Ok cc h ∧ r.Ok cc h) := rfl
theorem Ok_cnil (cc : CharClass) {h : Bool}  :
    (Syn.cnil).Ok cc h = (True) := rfl
theorem Ok_ccons (cc : CharClass) {h : Bool} (c : Syn .command) (cs : Syn .commands) :
    (Syn.ccons c cs).Ok cc h = (c.Ok cc h ∧ cs.Ok cc h) := rfl

end Conch.Spec
