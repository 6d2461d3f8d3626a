# Writes lean/Verif/Proof/CrcTables.lean: powers of x modulo the Castagnoli polynomial and the logarithms of 1 + x^a
# (baby steps and giant steps).  The numbers are checked in lean/Verif/Proof/CrcFour.lean.
import os
P=0x11EDC6F41
M=2**31-1;N=5274
def sp(v): return sum(((v>>i)&1)<<(6*i) for i in range(70))
def xt(v):
    v<<=1
    return v^P if v>>32 else v
def mul(a,b):
    r=0
    while b:
        if b&1: r^=a
        a=xt(a); b>>=1
    return r
def pw(a,e):
    r=1
    while e:
        if e&1: r=mul(r,a)
        a=mul(a,a); e>>=1
    return r
# mu = floor(x^64/P)
def divp(a,b):
    q=0
    while a.bit_length()>=b.bit_length():
        s=a.bit_length()-b.bit_length(); q|=1<<s; a^=b<<s
    return q
mu=divp(1<<64,P)
def table(g):
    v=1;T=0
    for i in range(256):
        T|=sp(v)<<(192*i); v=mul(v,g)
    return T
T0=table(2);T1=table(pw(2,256));T2=table(pw(2,65536))
# logarithms relative to 1 + x: k with x^k (1 + x) = 1 + x^a
baby={};v=3;B=1<<21
for k in range(B):
    baby[v]=k; v=xt(v)
back=pw(2,M-B)
G=[[mul(b<<(8*i),back) for b in range(256)] for i in range(4)]
L=[];v=1
for a in range(1,N+1):
    v=xt(v); w=v^1; k=0
    while w not in baby:
        w=G[0][w&255]^G[1][w>>8&255]^G[2][w>>16&255]^G[3][w>>24]; k+=B
    L.append((baby[w]+k,a))
L.sort()
n=len(L); assert n==N
gaps=[((L[(i+1)%n][0]-L[i][0])%M,i) for i in range(n)]
s=(max(gaps)[1]+1)%n
Rl=[((L[(s+i)%n][0]-L[s][0])%M,L[(s+i)%n][1]) for i in range(n)]
CZ=CA=CP=0
for i,(z,a) in enumerate(Rl):
    CZ|=z<<(31*i); CA|=a<<(13*i); CP|=i<<(13*a)
out='''/-!
Tables for the check of `Verif/Proof/CrcFour.lean`: powers of x modulo the Castagnoli polynomial with six bits for each coefficient,
and, for every `a` from 1 to 5274, the logarithm of `1 + x^a` relative to `1 + x^1949`.  Nothing is assumed of these numbers: the check
verifies what is needed.
-/
namespace CE.Crc.Four

'''
def d(name,v,c): return '/-- %s -/\ndef %s : Nat := 0x%x\n\n'%(c,name,v)
out+=d('gen',sp(P),'the generator')
out+=d('mu',sp(mu),'`x^64` divided by it')
for k in (32,33,66,68,70): out+=d('m%d'%k,sum(1<<(6*i) for i in range(k)),'%d coefficients 1'%k)
out+=d('T0',T0,'`x^i`, 192 bits each')+d('T1',T1,'`x^(256 i)`')+d('T2',T2,'`x^(65536 i)`')
out+=d('CZ',CZ,'logarithms in increasing order, 31 bits each')+d('CA',CA,'the `a` they belong to, 13 bits each')+d('CP',CP,'the place of each `a`, 13 bits each')
out+='end CE.Crc.Four\n'
open(os.path.join(os.path.dirname(os.path.abspath(__file__)),'..','lean','Verif','Proof','CrcTables.lean'),'w').write(out)
