#!/usr/bin/env python3
"""Translates the repository's own unit tests of expressions and constraints into Lean examples about the model
(lean/Verif/Tests/Expr.lean). Only statements of the forms below are understood; anything else is reported."""
import ast, re, sys
from fractions import Fraction
R='/repo/src/model/'
FILES=['node.rs','constant.rs','variable.rs','function/add.rs','function/cos.rs','function/div.rs','function/mul.rs',
       'function/sin.rs','node_func.rs','node_cmp.rs','constraint.rs','node_diff.rs']
def q(fr):
    fr=Fraction(fr)
    return f'(some ({fr.numerator}{"" if fr.denominator==1 else "/"+str(fr.denominator)}) : Q)'
class Skip(Exception): pass
class T:
    def __init__(s): s.lines=[]; s.kind={}; s.n=0; s.checks=0
    def fresh(s): s.n+=1; return f't{s.n}'
    def bind(s,e,k,name=None):
        v=name or s.fresh(); s.lines.append(f'let {v} ← {e}'); s.kind[v]=k; return v,k
    def pure(s,e,k,name=None):
        v=name or s.fresh(); s.lines.append(f'let {v} := {e}'); s.kind[v]=k; return v,k
    def check(s,b): s.checks+=1; s.lines.append(f'let ok := ok && {b}')
    # numbers are compile-time: ('num', Fraction) or ('numx', lean)
    def num(s,k,v): return q(v) if k=='num' else v
    def ex(s,a,name=None):
        """returns (value, kind)"""
        if isinstance(a,ast.Expression): return s.ex(a.body,name)
        if isinstance(a,ast.Constant) and isinstance(a.value,(int,float)): return Fraction(a.value),'num'
        if isinstance(a,ast.Constant) and isinstance(a.value,str): return a.value,'str'
        if isinstance(a,ast.Name):
            return a.id,s.kind[a.id]
        if isinstance(a,ast.UnaryOp) and isinstance(a.op,ast.USub):
            v,k=s.ex(a.operand)
            if k=='num': return -v,'num'
            if k=='node': return s.bind(f'negN {v}','node',name)
        if isinstance(a,ast.BinOp):
            l,lk=s.ex(a.left); r,rk=s.ex(a.right)
            op={ast.Add:'add',ast.Sub:'sub',ast.Mult:'mul',ast.Div:'div'}[type(a.op)]
            if lk=='num' and rk=='num':
                return {'add':l+r,'sub':l-r,'mul':l*r,'div':l/r if r else None}[op],'num'
            if lk=='natx' and rk=='natx': return f'({l} + {r})','natx'
            if lk=='node' and rk=='node': return s.bind(f'{op}N {l} {r}','node',name)
            if lk=='node' and rk=='num':
                return s.bind(f'mulS {q(r)} {l}' if op=='mul' else f'{op}S {l} {q(r)}','node',name)
            if lk=='num' and rk=='node':
                return s.bind({'add':'sAdd','sub':'sSub','mul':'sMul','div':'sDiv'}[op]+f' {q(l)} {r}','node',name)
        if isinstance(a,ast.Call) and isinstance(a.func,ast.Name):
            f=a.func.id
            if f in('VariableScalar__new_continuous','VariableScalar__new_integer'):
                return s.bind(f'newVar (F := Q) "{a.args[0].value}" .{"continuous" if f.endswith("s") else "integer"}','node',name)
            if f=='ConstantScalar__new': return s.bind(f'newConst {q(s.ex(a.args[0])[0])}','node',name)
            if f=='ConstantScalar__zero': return s.bind('newConst (zero : Q)','node',name)
            if f=='Constraint__new':
                l=s.ex(a.args[0])[0]; r=s.ex(a.args[2])[0]
                kd={'Equal':'equal','LessEqual':'lessEqual','GreaterEqual':'greaterEqual'}[a.args[1].id.split('__')[1]]
                return s.bind(f'newConstraint {l} .{kd} {r} "{a.args[3].value}"','con',name)
            if f=='hashmap__':
                es=[(s.ex(x.elts[0]),s.ex(x.elts[1])[0]) for x in a.args]
                if es[0][0][1]=='node':
                    return s.pure('envOf ['+', '.join(f'(Node.id {n[0]}, {v})' for n,v in es)+']','env',name)
                e='([] : List (Constraint Q × Q))'
                for n,v in es: e=f'insertC {e if e[0]!="i" else "("+e+")"} {n[0]} {q(v)}'
                return s.pure(e,'cmap',name)
            if f=='format__': return s.ex(a.args[1])
        if isinstance(a,ast.Call) and isinstance(a.func,ast.Attribute):
            m=a.func.attr; o,k=s.ex(a.func.value)
            if m=='clone': return o,k
            if m=='unwrap': return o,k
            if k=='num' and m in('cos','sin'): return f'(FloatOps.{m} {q(o)})','numx'
            if k=='num' and m=='pow': return o**int(s.ex(a.args[0])[0]),'num'
            if k=='node':
                if m=='cos' or m=='sin': return s.bind(f'{m}N {o}','node',name)
                if m=='partial': return s.bind(f'partialN {o} {s.ex(a.args[0])[0]}','node',name)
                if m=='derivative': return s.bind(f'derivative HashOrder.listOrder {o} {s.ex(a.args[0])[0]}','node',name)
                if m=='std_properties': return s.pure(f'Node.stdProperties {o}','prop',name)
                if m=='is_constant_with_value': return f'(Node.isConstVal {o} {s.num(*reversed(s.ex(a.args[0])))})','bool'
                if m=='evaluate': return f'(Node.evaluate {s.ex(a.args[0])[0]} {o})','numx'
                if m=='arguments': return f'{o}','args'
                if m=='name': return f'(Node.name {o})','strx'
                if m=='all_simple_paths':
                    return s.bind(f'allSimplePaths HashOrder.listOrder {o} ['+', '.join(s.ex(x)[0] for x in a.args[0].args)+']','paths',name)
                if m in('equal','geq','leq'):
                    r,rk=s.ex(a.args[0])
                    return s.bind(f'{m}N{"N" if rk=="node" else "S"} {o} {r if rk=="node" else q(r)} ""','con',name)
            if k=='num' and m in('equal','geq','leq'):
                return s.bind(f'{m}SN {q(o)} {s.ex(a.args[0])[0]} ""','con',name)
            if k=='con' and m=='violation': return f'(Constraint.violation {o} {s.ex(a.args[0])[0]})','numx'
            if k=='con' and m=='label': return f'{o}.label','strx'
            if k=='map':
                if m=='len': return f'(List.length {o})','natx'
                if m=='get': return f'(getN {o} {s.ex(a.args[0])[0]})','optx'
                if m=='contains_key': return f'(getN {o} {s.ex(a.args[0])[0]}).isSome','bool'
                if m=='is_empty': return f'(List.isEmpty {o})','bool'
            if k=='paths' and m=='get': return f'((getN {o} {s.ex(a.args[0])[0]}).getD [])','lists'
            if k=='lists' and m=='len': return f'(List.length {o})','natx'
            if k=='list' and m=='len': return f'(List.length {o})','natx'
            if k=='cmap' and m=='get': return f'(getC {o} {s.ex(a.args[0])[0]})','optx'
            if k=='env' and m=='get': return f'({o} (Node.id {s.ex(a.args[0])[0]}))','optx'
        if isinstance(a,ast.Subscript):
            o,k=s.ex(a.value)
            if k=='lists': return f'({o}[{a.slice.value}]?.getD [])','list'
        if isinstance(a,ast.Attribute):
            o,k=s.ex(a.value)
            if k=='prop' and a.attr=='affine': return f'{o}.affine','bool'
            if k=='prop' and a.attr=='b': return f'{o}.b','numx'
            if k=='prop' and a.attr=='a': return f'{o}.a','map'
        raise Skip(ast.dump(a)[:120])
def clean(e):
    e=re.sub(r'&mut |&','',e)
    e=re.sub(r'(\d+)_f64',r'(\1.)',e)
    e=e.replace('::','__').replace('hashmap!{','hashmap__(').replace('vec![','vec__(')
    e=re.sub(r'(\S+) => ([^,}]+)',r'(\1, \2)',e)
    e=e.replace('}',')').replace('format!','format__')
    e=re.sub(r'^\s*\*','',e)
    if 'vec__(' in e: e=e.replace('])','))')
    return ast.parse(e.strip(),mode='eval')
def split2(s):
    d=0;st=False
    for i,c in enumerate(s):
        if c=='"': st=not st
        elif st: pass
        elif c in '([{': d+=1
        elif c in ')]}': d-=1
        elif c==',' and d==0: return s[:i],s[i+1:]
    raise Skip(s)
def chars(x): return '['+', '.join("'%s'"%c for c in x)+']'
def stmt(t,st):
    st=' '.join(st.split())
    if m:=re.match(r'let (\w+) = (.*)$',st):
        v,k=t.ex(clean(m[2]),m[1])
        if v!=m[1]:
            t.pure(v if k not in('num',) else q(v),k if k!='num' else 'numx',m[1])
        return
    if m:=re.match(r'assert!\(!(.*)\)$',st):
        v,k=t.ex(clean(m[1])); t.check(f'!{v}'); return
    if m:=re.match(r'assert!\((.*)\)$',st):
        v,k=t.ex(clean(m[1])); t.check(v); return
    if m:=re.match(r'assert_(eq|ne)!\((.*)\)$',st):
        a,b=split2(m[2]); neg='!' if m[1]=='ne' else ''
        if 'format!' in a:
            s_=re.match(r'\s*"(.*)"',b)[1]
            if '{:?}' in a:
                o,k=t.ex(clean(re.match(r'format!\("\{:\?\}", (.*)\)$',a)[1]))
                parts=s_.strip('[]').split(', ')
                t.check(f'((Node.arguments {o}).map (Node.print testFmt) == ['+', '.join(chars(p) for p in parts)+'])')
            else:
                o,k=t.ex(clean(re.match(r'format!\("\{\}", (.*)\)$',a)[1]))
                t.check(f'({"Node" if k=="node" else "Constraint"}.print testFmt {o} == {chars(s_)})')
            return
        o,k=t.ex(clean(a)); p,pk=t.ex(clean(b))
        if k=='node' and pk=='node': t.check(f'{neg}Node.ptrEq {o} {p}'); return
        if k=='con' and pk=='con': t.check(f'{neg}Constraint.ptrEq {o} {p}'); return
        if k=='numx': t.check(f'({o} == {t.num(pk,p)})'); return
        if k=='natx' and pk=='num': t.check(f'({o} == {int(p)})'); return
        if k=='optx': t.check(f'({o} == some {t.num(pk,p)})'); return
        if k=='strx': t.check(f'({o} == "{p}")'); return
        # sums of lengths
        raise Skip(st)
    raise Skip(st)
out=['''import Verif.Props.Print

/-!
# The repository's own unit tests, run on the model

Generated from the unit tests in /repo by tools/gen_tests.py: each `example` below replays one `#[test]` function on
the model over exact rationals and checks every assertion in it (printed text, values, identity, argument order). They are
checks that the model agrees with the behaviour the authors of the code expect; they are not part of any proof.
Assertions that the generator could not translate are listed as comments.
-/

namespace Verif.Tests
open Verif

/-- decimal digits of a natural number (with fuel) -/
def digits : Nat → Nat → List Char
  | 0, _ => []
  | k + 1, n => if n < 10 then [Char.ofNat (48 + n)] else digits k (n / 10) ++ [Char.ofNat (48 + n % 10)]

/-- `{}` of an integral `f64` -/
def testFmt : Q → List Char
  | some q => if q.num < 0 then '-' :: digits 20 q.num.natAbs else digits 20 q.num.natAbs
  | none => ['N', 'a', 'N']

/-- the test runs without panic and all its assertions hold -/
def passes (t : M Bool) : Bool :=
  match t 0 with
  | .ok (b, _) => b
  | .error _ => false
''']
tot=0; skipped=0
for f in FILES:
    src=open(R+f).read(); lines=src.split('\n')
    start=next(i for i,l in enumerate(lines) if 'cfg(test)' in l)
    i=start
    while i<len(lines):
        m=re.match(r'\s*fn (\w+)\(\) \{',lines[i])
        if not m: i+=1; continue
        j=i+1
        while lines[j]!='    }': j+=1
        body='\n'.join(re.sub(r'//.*','',l) for l in lines[i+1:j])
        t=T(); sk=[]
        # `match` blocks of var_construction
        body=re.sub(r'match (\w+) \{\s*Node::VariableScalar\(\w+\) => \{(.*?)\},\s*_ => panic!\([^)]*\),\s*\}',
              lambda g: ('assertint!(%s);'%g[1]) if 'assert!(%s%s.is_integer())'%(g[1],g[1]) in g[2] else ('assertcont!(%s);'%g[1]),body,flags=re.S)
        for st in body.split(';'):
            st=st.strip()
            if not st: continue
            if g:=re.match(r'assert(int|cont)!\((\w+)\)$',st):
                t.check(('' if g[1]=='int' else '!')+f'Node.isInteger {g[2]}'); continue
            try:
                n0=len(t.lines)
                stmt(t,st)
            except (Skip,SyntaxError,KeyError,TypeError,IndexError) as e:
                del t.lines[n0:]
                sk.append(' '.join(st.split())); skipped+=1
        tot+=t.checks
        out.append(f'/-- `{m[1]}`, src/model/{f}:{i+1}-{j+1} ({t.checks} assertions) -/')
        body=[f'  let ok := true']+['  '+l for l in t.lines]
        # skip unused
        out.append(f'def {m[1]} : M Bool := do'); out+=body; out.append('  return ok\n')
        for x in sk: out.append(f'-- not translated: {x}')
        out.append(f'example : passes {m[1]} = true := by decide +kernel\n')
        i=j+1
out.append('end Verif.Tests\n')
open('/verif/lean/Verif/Tests/Expr.lean','w').write('\n'.join(out))
print(tot,'assertions',skipped,'skipped')
