import hashlib,re,sys
class R:
    def __init__(s,b): s.b=b; s.p=0
    def n(s,k):
        assert s.p+k<=len(s.b); r=s.b[s.p:s.p+k]; s.p+=k; return r
    def u(s,k): return int.from_bytes(s.n(k),'little')
def name(r): return r.n(r.u(1)).decode()
def sizing(r): return (r.u(8),r.u(8))
def ref(r,lv):
    t=r.u(1)
    if t==0 and lv<3:
        return ('inline',ty(r,lv+1))
    if lv==3:
        if t==0: return ('named',r.n(32))
        if t==1: return ('extern',r.n(32),r.n(32))
        # maybe
    if t==1: return ('named',r.n(32))
    if t==2: return ('extern',r.n(32),r.n(32))
    raise Exception('ref tag %d'%t)
def ty(r,lv=0):
    t=r.u(1)
    if t==0: return ('prim',r.u(1))
    if t==1: return ('uni',)
    if t==3:
        return ('enum',[(name(r),r.u(1)) for _ in range(r.u(1))])
    if t==4:
        o=[]
        for _ in range(r.u(1)):
            tag=r.u(1); o.append((name(r),tag,ref(r,lv)))
        return ('union',o)
    if t==5: return ('tuple',[ref(r,lv) for _ in range(r.u(1))])
    if t==6: return ('struct',[(name(r),ref(r,lv)) for _ in range(r.u(1))])
    if t==7: return ('array',ref(r,lv),r.u(2))
    if t==8: return ('list',ref(r,lv),sizing(r))
    if t==9: return ('set',ref(r,lv),sizing(r))
    if t==10: return ('map',ref(r,lv),ref(r,lv),sizing(r))
    raise Exception('ty tag %d'%t)
def lib(r):
    n=name(r)
    deps=[(r.n(32),name(r)) for _ in range(r.u(1))]
    ext=[]
    for _ in range(r.u(1)):
        ln=name(r); ext.append((ln,[(r.n(32),name(r)) for _ in range(r.u(2))]))
    types=[(name(r),ty(r)) for _ in range(r.u(2))]
    return n,deps,ext,types
def cn(n): return bytes([len(n)])+n.encode()
def cr(x):
    if x[0]=='inline': return ct(x[1])
    if x[0]=='named': return x[1]
    return x[2]
def cs(s): return s[0].to_bytes(8,'little')+s[1].to_bytes(8,'little')
def ct(t):
    k=t[0]
    if k=='prim': return bytes([0,t[1]])
    if k=='uni': return b'\1'
    if k=='enum': return b'\3'+b''.join(cn(n)+bytes([g]) for n,g in t[1])
    if k=='union': return b'\4'+b''.join(cn(n)+bytes([g])+cr(x) for n,g,x in t[1])
    if k=='struct': return b'\5'+b''.join(cn(n)+cr(x) for n,x in t[1])
    if k=='tuple': return b'\6'+b''.join(cr(x) for x in t[1])
    if k=='array': return b'\7'+cr(t[1])+t[2].to_bytes(2,'little')
    if k=='list': return b'\x08'+cr(t[1])+cs(t[2])
    if k=='set': return b'\x09'+cr(t[1])+cs(t[2])
    if k=='map': return b'\x0a'+cr(t[1])+cr(t[2])+cs(t[3])
H=lambda b:hashlib.sha256(b).digest()
def tagged(tag,b):
    t=H(tag); return H(t+t+b)
def semid(n,t): return tagged(b"urn:ubideco:strict-types:typ:v01",(cn(n) if n else b'')+ct(t))
def libid(l):
    n,deps,ext,types=l
    return tagged(b"urn:ubideco:strict-types:lib:v01",cn(n)+bytes([len(deps)])+b''.join(d[0] for d in deps)+len(types).to_bytes(2,'little')+b''.join(semid(a,b) for a,b in types))
A='ABCDEFGHIJKLMNOPQRSTUVWXYZabcdefghijklmnopqrstuvwxyz0123456789_~'
def b64(b):
    bits=''.join(f'{x:08b}' for x in b); 
    while len(bits)%6: bits+='0'
    return ''.join(A[int(bits[i:i+6],2)] for i in range(0,len(bits),6))
for f in ['Std','StrictTypes']:
    b=open(f'/repo/stl/{f}@0.1.0.stl','rb').read()
    print(b[:16])
    for off in range(0,60):
        try:
            r=R(b[off:]); l=lib(r)
            if r.p==len(r.b): break
        except Exception as e: continue
    else: print('fail'); continue
    print(f,'offset',off,len(l[3]), b64(libid(l)))
    import pprint
    for n,t in l[3]:
        if n in ('SemId','Sizing','Primitive','Bool','TypeLib','TypeSysId','LibRef','Error','InlineRef2','NestedCase'): print(n,t)
    if f=='Std': print([ (n,semid(n,t).hex()) for n,t in l[3] if n in('AlphaLodash','AlphaNumLodash')])
