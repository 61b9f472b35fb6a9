"""Extract the expected YAML documents of /repo/test_suite/tests/*.rs and /repo/README.md and write them as Lean values
(lean/Verif/Check/Expected.lean).  Only the YAML subset occurring there is understood."""
import re,sys,os
SRC='/repo/test_suite/tests/'
OUT=os.path.join(os.path.dirname(__file__),'../lean/Verif/Check/Expected.lean')
def q(s): return '"'+s.replace('\\','\\\\').replace('"','\\"')+'"'
def scalar(s):
    if s=='{}': return '.map []'
    if s=='[]': return '.seq []'
    if s in('true','false'): return '.bool '+s
    if s.startswith('"'):
        assert s.endswith('"') and '\\' not in s; s=s[1:-1]
    return '.str '+q(s)
KEY=re.compile(r'("[^"]*"|[^":\s][^":]*):(?: (.*))?$')
def key(s):
    if s.startswith('"'): return '.str '+q(s[1:-1])
    return '.num '+s if re.fullmatch(r'\d+',s) else '.str '+q(s)
def block(ls,i,ind):
    """ls: (indent,text); returns (lean,i)"""
    if ls[i][1].startswith('- '):
        items=[]
        while i<len(ls) and ls[i][0]==ind and ls[i][1].startswith('- '):
            t=ls[i][1][2:]
            if KEY.match(t):
                ls[i]=(ind+2,t); v,i=block(ls,i,ind+2)
            else: v=scalar(t); i+=1
            items.append(v)
        return '.seq ['+', '.join(items)+']',i
    es=[]
    while i<len(ls) and ls[i][0]==ind and not ls[i][1].startswith('- '):
        m=KEY.match(ls[i][1]); assert m,ls[i]
        i+=1
        if m[2] is not None: v=scalar(m[2])
        else: v,i=block(ls,i,ls[i][0])
        es.append('('+key(m[1])+', '+v+')')
    return '.map ['+', '.join(es)+']',i
def conv(y):
    ls=[(len(l)-len(l.lstrip()),l.strip()) for l in y.splitlines()]
    assert ls[0][1]=='---'; ls=ls[1:]
    v,i=block(ls,0,0); assert i==len(ls),ls[i]
    return v
def wrap(s,w=150):
    out=[];cur='  '
    for tok in re.findall(r'"(?:\\.|[^"\\])*"|[^"]',s):
        cur+=tok
        if len(cur)>w and tok==' ': out.append(cur.rstrip());cur='    '
    return '\n'.join(out+[cur])
r=['import Verif.Model.Ser','/-!','# Expected documents of the project\'s test suite','',
   'Generated from test_suite/tests/*.rs and README.md by tools/suite.py.','-/','','namespace Verif.Suite','']
for f in('models.rs','repr.rs','api.rs'):
    n={}
    fn=None
    text=open(SRC+f).read()
    for m in re.finditer(r'fn (\w+)\(\)|r##"(.*?)"##',text,re.S):
        if m[1]: fn=m[1]; continue
        n[fn]=n.get(fn,0)+1
        line=text[:m.start()].count('\n')+1
        parts=fn.split('_'); name='expected'+''.join(p.capitalize() for p in parts)+('' if n[fn]==1 else str(n[fn]))
        r+=[f'/-- {f} {line}, `{fn}`. -/',f'def {name} : Value :=',wrap(conv(m[2])),'']
text=open('/repo/README.md').read()
m=re.search(r'```yaml\n(.*?)```',text,re.S)
r+=[f"/-- README.md {text[:m.start()].count(chr(10))+1}, the result of `print_api`. -/",'def expectedReadme : Value :=',wrap(conv(m[1])),'']
r+=['end Verif.Suite']
open(OUT,'w').write('\n'.join(r)+'\n')
