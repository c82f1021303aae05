#!/usr/bin/env python3
"""Generate lean/Verif/Model/ConstTable.lean from utide/data/ut_constants.npz.

Reads the pickled arrays without numpy. Every float64 is written as the dyadic rational it denotes
(numerator, exponent of two). The consistency checks at the end are assertions about the data file:
satellites and shallow-water components are stored contiguously, so attaching them to their
constituent loses nothing."""
import zipfile, pickle, struct, io, math, pathlib
class Dt:
    def __init__(s,*a): s.a=a; s.st=None
    def __setstate__(s,st): s.st=st
class Arr:
    def __init__(s,*a): s.a=a
    def __setstate__(s,st): s.st=st
def recon(*a): return Arr(*a)
def scalar(dt,*a): return ('scalar',dt,a)
class Unp(pickle.Unpickler):
    def find_class(s,m,n):
        if n=='dtype': return Dt
        if n=='_reconstruct': return recon
        if n=='ndarray': return Arr
        if n=='scalar': return scalar
        if n=='Bunch':
            class B(dict): 
                def __setstate__(s,st): s.update(st)
            return B
        if n=='encode':
            import _codecs; return _codecs.encode
        return type(n,(dict,),{})
z=zipfile.ZipFile('/repo/utide/data/ut_constants.npz')
out={}
for f in z.namelist():
    d=z.read(f)
    assert d[:6]==b'\x93NUMPY'
    v=d[6]
    hl=struct.unpack('<H',d[8:10])[0]; h=d[10:10+hl]; body=d[10+hl:]
    if b"'|O'" not in h:
        out[f]=body; continue
    o=Unp(io.BytesIO(body),encoding='latin1').load()
    out[f]=o
def conv(o):
    if isinstance(o,Arr):
        ver,shape,dt,fort,data=o.st
        code=dt.a[0]
        if isinstance(data,str): data=data.encode('latin1')
        if code.startswith('O'):
            return ('O',shape,[conv(x) for x in data])
        end=dt.st[1] if dt.st else '<'
        if code=='f8': fmt='d'
        elif code in('u1',): fmt='B'
        elif code in ('i2',): fmt='h'
        elif code=='u2': fmt='H'
        elif code=='i1': fmt='b'
        elif code=='i4': fmt='i'
        elif code=='i8': fmt='q'
        elif code[0]=='U':
            n=int(code[1:]); tot=len(data)//(4*n)
            l=[data[i*4*n:(i+1)*4*n].decode('utf-32-le').rstrip('\0') for i in range(tot)]
            return (code,shape,fort,l)
        else: raise Exception(code)
        sz=struct.calcsize(fmt); l=list(struct.unpack('<%d%s'%(len(data)//sz,fmt),data))
        return (code,shape,fort,l)
    if isinstance(o,dict): return {k:conv(v) for k,v in o.items()}
    return o
R={k[:-4]:conv(v) for k,v in out.items()}

def g(o):
    while isinstance(o,tuple) and o[0]=='O': o=o[2][0]
    return o
sh=g(R['shallow']); c=g(R['const']); s=g(R['sat'])
N=146
nan=math.isnan
dood=[[c['doodson'][3][j*N+i] for j in range(6)] for i in range(N)]
assert c['doodson'][2] and s['deldood'][2]
M=len(s['iconst'][3])
deld=[[s['deldood'][3][j*M+i] for j in range(3)] for i in range(M)]
def dy(x):
    n,d=float(x).as_integer_ratio()
    e=d.bit_length()-1
    assert d==1<<e
    return f"⟨{n}, {e}⟩"
def col(o,k,i): return o[k][3][i]
rows=[]
for k in range(N):
    name=col(c,'name',k).rstrip()
    own=[i for i in range(M) if col(s,'iconst',i)-1==k]
    if nan(col(c,'isat',k)): assert own==[]
    else: assert own==list(range(int(col(c,'isat',k))-1,int(col(c,'isat',k))-1+int(col(c,'nsat',k))))
    sats=", ".join(f"⟨{col(s,'ilatfac',i)}, {deld[i][0]}, {deld[i][1]}, {deld[i][2]}, {dy(col(s,'phcorr',i))}, {dy(col(s,'amprat',i))}⟩" for i in own)
    isw=not nan(col(c,'ishallow',k))
    assert isw==(not nan(col(c,'nshallow',k)))
    assert isw==nan(col(c,'semi',k)) and all(isw==nan(x) for x in dood[k])
    if isw:
        i0=int(col(c,'ishallow',k))-1; n=int(col(c,'nshallow',k))
        assert all(col(sh,'iconst',i)-1==k for i in range(i0,i0+n))
        kind=".shallow ["+", ".join(f"({col(sh,'iname',i)-1}, {dy(col(sh,'coef',i))})" for i in range(i0,i0+n))+"]"
    else:
        assert all(x==int(x) for x in dood[k])
        kind=".primary ⟨"+", ".join(str(int(x)) for x in dood[k])+"⟩ "+dy(col(c,'semi',k))
    kc=col(c,'kmpr',k).strip()
    kmpr="none"
    if kc:
        j=[x.rstrip() for x in c['name'][3]].index(kc)
        assert col(c,'ikmpr',k)==j+1
        kmpr=f"some {j}"
    rows.append(f'  ⟨"{name}", {dy(col(c,"freq",k))}, {dy(col(c,"df",k))}, {kmpr}, {kind}, [{sats}]⟩')
out=pathlib.Path(__file__).resolve().parent.parent/'lean/Verif/Model/ConstTable.lean'
head='''import Verif.Model.Table

/-!
# The constituent catalogue (`utide/data/ut_constants.npz`)

Generated by `tools/gen_table.py`; do not edit. One entry per catalogue position 0..145.
-/

namespace UTide

'''
B=20
parts=[]
for b in range(0,N,B):
    nm=f"catalogue{b//B}"
    parts.append(nm)
    head+=f"/-- `ut_constants.npz`, catalogue positions {b} to {min(b+B,N)-1}. -/\ndef {nm} : List Con := [\n"+",\n".join(rows[b:b+B])+"]\n\n"
head+="/-- `ut_constants.const`, `.sat` and `.shallow` (`_ut_constants.py` 14-16), all 146 constituents. -/\ndef catalogue : List Con :=\n  "+" ++ ".join(parts)+"\n\nend UTide\n"
out.write_text(head)
