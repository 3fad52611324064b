import re,glob,json
out=[]
def balanced(s,i):
    # s[i]=='(' -> index after matching )
    d=0;instr=False
    while True:
        c=s[i]
        if instr:
            if c=='\\': i+=1
            elif c=='"': instr=False
        else:
            if c=='"': instr=True
            elif c=='(': d+=1
            elif c==')':
                d-=1
                if d==0: return i+1
        i+=1
names='Unexpected|UnexpectedEOF|Unmatched|IncompleteCmd|BadFd|BadIdent|BadSubst'
def unesc(raw,body):
    if raw: return body
    body=re.sub(r'\\\n\s*','',body)
    return body.encode().decode('unicode_escape')
STR=r'(?:(r#?)?"((?:[^"\\]|\\.)*)"#?)'
def norm(e):
    e=re.sub(r'\s+','',e) if 0 else e
    e=re.sub(r'String::from\(("(?:[^"\\]|\\.)*")\)',r'\1',e)
    e=re.sub(r'("(?:[^"\\]|\\.)*")\.(into|to_owned|to_string)\(\)',r'\1',e)
    e=e.replace('Token::','').replace('ParseError::','')
    e=re.sub(r',\s*\)',')',e)
    e=re.sub(r'\s+',' ',e)
    e=re.sub(r'\(\s+','(',e)
    return e.strip()
for f in sorted(glob.glob('/repo/tests/*.rs')):
    s=open(f).read()
    fns=re.split(r'\n#\[test\]\n',s)
    for fn in fns:
        # direct
        cur=None
        for m in re.finditer(r'make_parser\('+STR+r'\)(?:\s*\.(\w+)\()?|Err\(|\(\s*'+STR+r',\s*(?=('+names+r')\b)',fn):
            pass
        for m in re.finditer(r'assert_eq!\(\s*Err\(',fn):
            i=m.end()-1
            j=balanced(fn,i)
            e=fn[i+1:j-1]
            rest=fn[j:]
            m2=re.match(r',\s*make_parser\('+STR+r'\)\s*\.(\w+)\(',rest)
            if m2: out.append((f,norm(e),unesc(m2.group(1),m2.group(2)),m2.group(3))); continue
            m2=re.match(r',\s*(p|parser)\s*\.(\w+)\(',rest)
            if m2:
                before=fn[:m.start()]
                ms=list(re.finditer(r'let mut (?:p|parser) = make_parser\('+STR+r'\);',before))
                if ms and not re.search(r'\bp\.',before[ms[-1].end():]):
                    out.append((f,norm(e),unesc(ms[-1].group(1),ms[-1].group(2)),m2.group(2)))
        # tables
        mm=re.search(r'make_parser\((?:c|s|src|cmd|command)\)\s*\.(\w+)\(',fn)
        if mm:
            for m in re.finditer(r'\(\s*'+STR+r',\s*(?:Err\()?(?=('+names+r')\b)',fn):
                i=m.end()
                k=re.match(r'\w+',fn[i:]).end()+i
                if fn[k]=='(': k2=balanced(fn,k)
                else: k2=k
                out.append((f,norm(fn[i:k2]),unesc(m.group(1),m.group(2)),mm.group(1)))
print(len(out))
json.dump(out,open('/tmp/scr/errtests.json','w'))
from collections import Counter
print(Counter(o[3] for o in out))
