#!/usr/bin/env python3
"""Generates lean/Verif/Model/Tables.lean from the Go tables in /repo.
Reads the source as text; fails if an entry is not understood."""
import re
R="/repo/"
def lit(s):
    return 'bs!"' + s.replace('\\','\\\\').replace('"','\\"') + '"'
def lines(path, lo, hi):
    return open(R+path, encoding="utf-8").read().split("\n")[lo-1:hi]
out=[]
w=out.append
w("import Verif.Model.Bytes")
w("/-! Generated by tools/gen_tables.py from the Go sources; do not edit.\n\nOrder of entries is source order; Go map literals have no duplicate keys (compile error). -/")
w("")
w("namespace Verif")
w("")
def macros(path, lo, hi, name, doc):
    w(f"/-- {doc} The value is the argument signature, `none` for a nil entry. -/")
    w(f"def {name} : List (GoString × Option GoString) := [")
    rows=[]
    for l in lines(path,lo,hi):
        t=l.strip()
        if not t or t.startswith("//"): continue
        m=re.match(r'^`([^`]*)`:\s*(?:builtinMacro\("(\w*)"\)|(nil)),',t)
        assert m,(path,t)
        sig = "none" if m.group(3) else f"some {lit(m.group(2))}"
        rows.append(f"  ({lit(m.group(1))}, {sig})")
    w(",\n".join(rows)+"]")
    w("")
    return len(rows)
def find(path, start, end):
    ls=open(R+path,encoding="utf-8").read().split("\n")
    a=next(i for i,l in enumerate(ls) if start in l)
    b=next(i for i in range(a+1,len(ls)) if ls[i]==end)
    return a+2, b
a,b=find("macros.go","p.macros = map[string]macroParser{","\t}")
n1=macros("macros.go",a,b,"latexMacros",f"macros.go:{a-1}-{b+1}, the literal of `addBuiltinMacros`.")
a,b=find("mtex/macros.go","builtinMacros = map[string]handler{","\t}")
n2=macros("mtex/macros.go",a,b,"mtexMacros",f"mtex/macros.go:{a-1}-{b+1}, `builtinMacros`.")
a,b=find("internal/tex2unicode/utf8.go","tex2uni = map[string]rune{","\t}")
w(f"/-- internal/tex2unicode/utf8.go:{a-1}-{b+1}, `tex2uni`. -/")
w("def tex2uni : List (GoString × Nat) := [")
rows=[]
for l in lines("internal/tex2unicode/utf8.go",a,b):
    t=l.strip()
    m=re.match(r'^`([^`]*)`:\s*(0x[0-9a-fA-F]+|\d+),',t)
    assert m,t
    rows.append(f"  ({lit(m.group(1))}, {int(m.group(2),0)})")
w(",\n".join(rows)+"]")
w("")
n3=len(rows)
src=open(R+"mtex/symbols/symbols_gen.go").read()
for m in re.finditer(r'\t(\w+) = NewSet\(\n(.*?)\n\t\)',src,re.S):
    nm=m.group(1); 
    vals=[eval(x.strip().rstrip(",")) for x in m.group(2).split("\n")]
    l0=src[:m.start()].count("\n")+1
    w(f"/-- mtex/symbols/symbols_gen.go:{l0}, arguments of `NewSet` for `{nm}`. -/")
    w(f"def sym{nm} : List GoString := [")
    w(",\n".join("  "+lit(v) for v in vals)+"]")
    w("")
w("end Verif")
open("/verif/lean/Verif/Model/Tables.lean","w").write("\n".join(out)+"\n")
print(n1,n2,n3)
