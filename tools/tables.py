"""Writes the table modules from the sources in /repo: tables.py OUTDIR. Compare OUTDIR with lean/Verif/Model."""
import sys
OUT = sys.argv[1]
import re
def load(p):
    s=open(p).read(); T={}
    for m in re.finditer(r'(\w+)\[\]\s*=\s*\{([^}]*)\}',s):
        line=s[:m.start()].count('\n')+1
        T[m.group(1)]=([int(x) for x in m.group(2).split(',') if x.strip()],line,s[:m.end()].count('\n')+1)
    return T
def rows(t,w,cols):
    out=[]
    for i in range(0,len(t),cols):
        n=0
        for j,x in enumerate(t[i:i+cols]): n|=(x%(1<<w))<<(w*j)
        out.append('  0x%x'%n)
    return '[\n'+',\n'.join(out)+']'
def emit(f,ns,src,specs,head):
    T=load('/repo/'+src)
    o=head+f'\nnamespace Verif.{ns}\n'
    for name,w,cols in specs:
        t,a,b=T[name]
        o+=f'\n/-- `{name}` — {src}:{a}-{b}, {cols} entries of {w} bits to a literal, the first one in the low bits. -/\ndef {name}Tab : List Nat := {rows(t,w,cols)}\n'
    o+=f'\nend Verif.{ns}\n'
    open(f,'w').write(o)
head='''/-!
# The committed lookup tables of `{0}` — {1}

A transcription of the array initialisers; `tools/tables.py` writes this file.
-/
'''
emit(OUT + '/Posit8Tbl.lean','Posit8','src/posit8_tbl.cpp',
  [('opadd',8,256),('opmul',8,256),('opdiv',8,256),('opinv',8,256),('opsquare',8,256),('opexp2',8,256),('ophalf',8,256),('op2float',32,256)],head.format('posit8','src/posit8_tbl.cpp'))
emit(OUT + '/Posit12Tbl.lean','Posit12','src/posit12_tbl.cpp',
  [('opinv',16,64),('opsquare',16,64),('opexp2',16,64),('op2float',32,64)],head.format('posit12','src/posit12_tbl.cpp'))
