#!/usr/bin/env python3
"""Extracts the tables of /repo/internal/fakebackend into a text file: one line per glyph,
'symbol-hex math name type size-bits' + 8 numbers as bits; kern lines start with K."""
import re, struct, sys, ast
def bits(x): return str(struct.unpack('<Q', struct.pack('<d', float(x)))[0])
def gostr(s): return ast.literal_eval(s).encode()
out=open(sys.argv[1],'w')
pat=re.compile(r'fontKey\{symbol: ("(?:[^"\\]|\\.)*"), math: (true|false), font: font.Font\{Name: "(\w+)", Size: ([-+.e\d]+), Type: "(\w+)"\}\}:\s+font.Metrics\{Advance: (\S+), Height: (\S+), Width: (\S+), XMin: (\S+), XMax: (\S+), YMin: (\S+), YMax: (\S+), Iceberg: (\S+), Slanted')
n=0
for l in open('/repo/internal/fakebackend/fakebackend_fonts_gen.go',encoding='utf8'):
    m=pat.search(l)
    if not m:
        if 'fontKey{' in l: print('unmatched',l)
        continue
    g=m.groups(); n+=1
    out.write(' '.join([gostr(g[0]).hex() or '-',g[1],g[2],g[4],bits(g[3])]+[bits(x) for x in g[5:]])+'\n')
kp=re.compile(r'kernKey\{font: font.Font\{Name: "(\w+)", Size: ([-+.e\d]+), Type: "(\w+)"\}, s1: ("(?:[^"\\]|\\.)*"), s2: ("(?:[^"\\]|\\.)*")\}:\s+(\S+),')
for l in open('/repo/internal/fakebackend/fakebackend_kerns_gen.go',encoding='utf8'):
    m=kp.search(l)
    if not m:
        if 'kernKey{' in l: print('unmatched',l)
        continue
    g=m.groups(); n+=1
    out.write(' '.join(['K',g[0],g[2],bits(g[1]),gostr(g[3]).hex() or '-',gostr(g[4]).hex() or '-',bits(g[5])])+'\n')
print(n,'entries')
