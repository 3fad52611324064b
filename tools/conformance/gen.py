import json
ts=json.load(open('/tmp/scr/errtests.json'))
def ls(s):
    o='"'
    for c in s:
        if c=='"': o+='\\"'
        elif c=='\\': o+='\\\\'
        elif c=='\n': o+='\\n'
        elif c=='\t': o+='\\t'
        elif c=='\r': o+='\\r'
        else: o+=c
    return o+'"'
print('''import Verif
open Conch
def cc : CharClass := { alphabetic := Char.isAlpha, whitespace := Char.isWhitespace }
def q (s : Str) : String := "\\"" ++ (String.ofList s |>.replace "\\\\" "\\\\\\\\" |>.replace "\\n" "\\\\n") ++ "\\""
def sp (p : SourcePos) : String := s!"src({p.byte}, {p.line}, {p.col})"
def tk (t : Token) : String := match t with
 | .Name s => s!"Name({q s})" | .Literal s => s!"Literal({q s})" | .Whitespace s => s!"Whitespace({q s})"
 | .ParamPositional p => s!"ParamPositional({p.asNum})"
 | t => ((reprStr t).replace "Conch.Token." "")
def pe (e : ParseError Empty) : String := match e with
 | .Unexpected t p => s!"Unexpected({tk t}, {sp p})"
 | .UnexpectedEOF => "UnexpectedEOF"
 | .Unmatched t p => s!"Unmatched({tk t}, {sp p})"
 | .IncompleteCmd a p b r => s!"IncompleteCmd({q a}, {sp p}, {q b}, {sp r})"
 | .BadFd a b => s!"BadFd({sp a}, {sp b})"
 | .BadIdent s p => s!"BadIdent({q s}, {sp p})"
 | .BadSubst t p => s!"BadSubst({tk t}, {sp p})"
 | .Custom e => nomatch e
def go {α} (I) [TokStream I] (src : String) (f : Rec I DefaultBuilder → P I DefaultBuilder α) : String :=
  match (run f (PSt.new (lex cc src.toList) ())).1 with
  | .ok _ => "OK" | .err e => pe e | .panic n => s!"PANIC {n}" | .fuel => "FUEL"
def both {α} (src exp : String) (f : (I : Type) → [TokStream I] → Rec I DefaultBuilder → P I DefaultBuilder α) : IO Unit := do
  let a := go CIter src (f CIter); let b := go AIter src (f AIter)
  if a != exp then IO.println s!"MISMATCH {repr src}\\n  exp {exp}\\n  got {a}"
  if a != b then IO.println s!"C/A differ {repr src}: {a} vs {b}"
''')
M={'parameter':'parameter','function_declaration':'functionDeclaration','compound_command':'compoundCommand','for_command':'forCommand','case_command':'caseCommand','if_command':'ifCommand','loop_command':'loopCommand','brace_group':'braceGroup','complete_command':'completeCommand','do_group':'doGroup','subshell':'subshell','redirect':'redirect','redirect_list':'redirectList','word':'word','backticked_command_substitution':'backtickedCommandSubstitution','pipeline':'pipeline'}
print('def main : IO Unit := do')
for f,e,s,m in ts:
    e=e.replace('Positional(One)','1')
    print(f'  both {ls(s)} {ls(e)} (fun _ _ R => {M[m]} R)')
print('  IO.println "done"\n#eval main')
