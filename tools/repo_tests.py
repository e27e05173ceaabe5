#!/usr/bin/env python3
"""Write lean/Verif/Validation/*.lean: the known-answer tests of /repo as statements about the model.

These are tests of the model against the expected values that the authors of the code recorded; they are no proofs
of properties.  The fast ones are checked by the kernel, the slow ones by the evaluator (`#guard`).
"""
import re,sys
R='/repo/spec-examples/tests/'
def hexs(s): return 'x "%s"'%s
def rd(f): return open(R+f).read()
def arrays(s): # public-slice byte arrays in order
    out=[]
    for m in re.finditer(r'\[\s*((?:0x[0-9a-fA-F]+,?\s*)+)\]',s):
        out.append(re.findall(r'0x([0-9a-fA-F]+)',m.group(1)))
    return out
def bhex(a): assert all(len(x)==2 for x in a); return ''.join(a)
T={}
def t(mod,cite,stmt): T.setdefault(mod,[]).append((cite,stmt))
# sha2
s=rd('test_sha2.rs')
for m,e in re.findall(r'from_hex\("([0-9a-f]+)"\);\s*let expected_256 = "([0-9a-f]+)"',s):
    t('Hashes','test_sha2.rs test_sha256_kat',f'(do let m ← Hex.seqFromHex (s "{m}"); let d ← Sha2.hash m; .ok (Hex.toHex d)) = .ok (s "{e}")')
s=rd('test_hmac.rs')
for k,m,e in re.findall(r'key: "([0-9a-f]*)",\s*txt: "([0-9a-f]*)",\s*expected: "([0-9a-f]+)"',s):
    t('Hashes','test_hmac.rs test_hmac_kat',f'(do let k ← Hex.seqFromHex (s "{k}"); let m ← Hex.seqFromHex (s "{m}"); let d ← Hmac.hmac k m; .ok (Hex.toHex d)) = .ok (s "{e}")')
s=rd('test_hkdf.rs')
for ikm,salt,info,l,prk,okm in re.findall(r'ikm: "(\w*)",\s*salt: "(\w*)",\s*info: "(\w*)",\s*l: (\d+),\s*prk: "(\w*)",\s*okm: "(\w*)"',s):
    t('Hashes','test_hkdf.rs test_kat',f'(do let salt ← Hex.seqFromHex (s "{salt}"); let ikm ← Hex.seqFromHex (s "{ikm}"); let prk ← Hkdf.extract salt ikm; .ok (Hex.toHex prk)) = .ok (s "{prk}")')
    t('Hashes','test_hkdf.rs test_kat',f'(do let prk ← Hex.seqFromHex (s "{prk}"); let info ← Hex.seqFromHex (s "{info}"); let okm ← Hkdf.expand prk info {l}; .ok (Hex.toHex okm)) = .ok (s "{okm}")')
s=rd('test_blake2b.rs')
ar=re.findall(r'\[u8; 64\] = \[([^\]]*)\]',s)
ar=[''.join(re.findall(r'0x(\w\w)',a)) for a in ar]
ms=re.findall(r'String::from\("([^"]*)"\)',s)
for m,e in zip(ms,ar): t('Hashes','test_blake2b.rs',f'Blake2.blake2b (s "{m}") = Hex.seqFromHex (s "{e}")')
s=rd('test_fips202.rs')
for f,body in re.findall(r'fn test_(\w+)\(\) \{(.*?)\n\}',s,re.S):
    items=re.findall(r'String::from\("([^"]*)"\);.*?let expected: \[u8; (\d+)\] = \[([^\]]*)\]',body,re.S)
    for m,n,e in items:
        e=''.join(re.findall(r'0x(\w\w)',e)); assert len(e)==2*int(n)
        call={'shake128':f'Fips202.shake128 (s "{m}") {n}','shake256':f'Fips202.shake256 (s "{m}") {n}'}.get(f,f'Fips202.{f} (s "{m}")')
        t('Sponge','test_fips202.rs test_'+f,f'{call} = Hex.seqFromHex (s "{e}")')
# gf128
s=rd('test_gf128.rs'); m,k,o=re.findall(r'from_hex\("([0-9a-f]+)"\)',s)
t('Aead','test_gf128.rs test_gmac',f'(do let m ← Hex.seqFromHex (s "{m}"); let k ← Hex.arrFromHex 16 (s "{k}"); Gf128.gmac m k) = Hex.arrFromHex 16 (s "{o}")')
s=rd('test_poly1305.rs'); m,k,o=map(bhex,arrays(s))
t('Aead','test_poly1305.rs basic_test',f'(do let m ← Hex.seqFromHex (s "{m}"); let k ← Hex.arrFromHex 32 (s "{k}"); Poly1305.poly m k) = Hex.arrFromHex 16 (s "{o}")')
s=rd('test_chacha20poly1305.rs'); k,iv,m,a,c,tag=map(bhex,arrays(s))
t('Aead','test_chacha20poly1305.rs kat',f'ChaChaPoly.encrypt (b "{k}") (b "{iv}") (b "{a}") (b "{m}") = .ok (b "{c}", b "{tag}")')
t('Aead','test_chacha20poly1305.rs kat',f'ChaChaPoly.decrypt (b "{k}") (b "{iv}") (b "{a}") (b "{c}") (b "{tag}") = .ok (some (b "{m}"))')
s=rd('test_chacha20.rs'); A=arrays(s)
w=lambda a:'['+', '.join('0x'+x for x in a)+']'
t('Aead','test_chacha20.rs test_quarter_round',f'ChaCha.quarterRound 2 7 8 13 {w(A[0])} = .ok {w(A[1])}')
key,iv,st1,st2,ser=A[2:7]
t('Aead','test_chacha20.rs test_block',f'ChaCha.blockInit (b "{bhex(key)}") 1 (b "{bhex(iv)}") = .ok {w(st1)}')
t('Aead','test_chacha20.rs test_block',f'ChaCha.blockInner (b "{bhex(key)}") 1 (b "{bhex(iv)}") = .ok {w(st2)}')
t('Aead','test_chacha20.rs test_block',f'ChaCha.stateToBytes {w(st2)} = .ok (b "{bhex(ser)}")')
key,iv,m,c=map(bhex,A[7:11])
t('Aead','test_chacha20.rs test_kat',f'ChaCha.chacha (b "{key}") (b "{iv}") (b "{m}") = .ok (b "{c}")')
t('Aead','test_chacha20.rs test_kat',f'ChaCha.chacha (b "{key}") (b "{iv}") (b "{c}") = .ok (b "{m}")')
s=rd('test_aes.rs'); A=list(map(bhex,arrays(s)))
for i,(ctr,alg) in enumerate([('0xfcfdfeff','aes128'),('1','aes128'),('0xfcfdfeff','aes256')]):
    m,k,n,c=A[4*i:4*i+4]
    t('Aead','test_aes.rs',f'Aes.encryptKey (b "{k}") (b "{n}") {ctr} (b "{m}") .{alg} = .ok (b "{c}")')
    t('Aead','test_aes.rs',f'Aes.encryptKey (b "{k}") (b "{n}") {ctr} (b "{c}") .{alg} = .ok (b "{m}")')
s=rd('test_aesgcm.rs')
for body in re.findall(r'AeadTestVector \{\s*key(.*?)\}',s,re.S):
    body='key'+body
    g=lambda n: re.search(n+r'\s*:\s*"(\w*)"',body)
    if not g('nonce'): continue
    k,n,m,a,c,tag=[g(x).group(1) for x in ('key','nonce','msg','aad','exp_cipher','exp_mac')]
    alg='aes128' if len(k)==32 else 'aes256'
    t('Aead','test_aesgcm.rs kat_test',f'AesGcm.encryptKey (b "{k}") (b "{n}") (b "{a}") (b "{m}") .{alg} = .ok (b "{c}", b "{tag}")')
    t('Aead','test_aesgcm.rs kat_test',f'AesGcm.decryptKey (b "{k}") (b "{n}") (b "{a}") (b "{c}") (b "{tag}") .{alg} = .ok (some (b "{m}"))')
# curves
s=rd('test_curve25519.rs')
A=list(map(bhex,arrays(s)))
K=[tuple(A)]+re.findall(r'\(\s*"(\w+)",\s*"(\w+)",\s*"(\w+)",\s*\)',s)
for k,u,e in K: t('Curves','test_curve25519.rs',f'Curve25519.scalarmult (b "{k}") (b "{u}") = .ok (b "{e}")')
s=rd('test_p256.rs')
for k,x,y in re.findall(r'Scalar::from_hex\("(\w+)"\).*?from_hex\("(\w+)"\).*?from_hex\("(\w+)"\)',s,re.S):
    t('Curves','test_p256.rs',f'(do let k ← AbstractInt.fromHex 256 (s "{k}"); let p ← P256.pointMul k; let x ← NatMod.fromHex P256.F (s "{x}"); let y ← NatMod.fromHex P256.F (s "{y}"); .ok (NatMod.eq p.1 x && NatMod.eq p.2 y)) = .ok true')
s=open('/repo/hacspec/tests/test_poly.rs').read()
def t(c,st): T.setdefault('Library',[]).append((c,st))
def sp(v): return '['+', '.join(f'({a}, {b})' for a,b in v)+']'
def P(kind,op,l,n,m,a,b,e,cite):
    ty='{ l := %d, n := %d, m := %s }'%(l,n,sp(m))
    if op in('pAdd','pMul'):
        t(cite,f'(do let a ← Poly.newSparse (w := 128) {ty} {sp(a)}; let b ← Poly.newSparse {ty} {sp(b)}; Poly.{op} Poly.{kind} {ty} a b) = Poly.newSparse {ty} {sp(e)}')
    elif op=='pDiv':
        t(cite,f'(do let a ← Poly.newSparse (w := 128) {ty} {sp(a)}; let b ← Poly.newSparse {ty} {sp(b)}; Poly.pDiv Poly.{kind} {ty} a b) = (do let q ← Poly.newSparse {ty} {sp(e[0])}; let r ← Poly.newSparse {ty} {sp(e[1])}; .ok (q, r))')
    elif op=='pInv':
        t(cite,f'(do let a ← Poly.newSparse (w := 128) {ty} {sp(a)}; let i ← Poly.pInv Poly.{kind} {ty} a; Poly.pMul Poly.{kind} {ty} a i) = Poly.newSparse {ty} {sp(e)}')
U,S='numPubU','numPubS'
c='test_poly.rs test_poly_add'
P(U,'pAdd',256,0,[(0,0)],[(78,1),(222,1)],[(0,1),(222,2)],[(0,1),(78,1),(222,3)],c)
P(S,'pAdd',256,0,[(0,0)],[(0,-1),(78,1)],[(0,1),(78,0),(222,-5)],[(78,1),(222,-5)],c)
P(U,'pAdd',256,3,[(0,0)],[(78,1),(222,1)],[(0,1),(222,2)],[(0,1),(78,1)],c)
P(S,'pAdd',256,3,[(0,0)],[(0,-1),(78,1)],[(0,1),(222,-5)],[(78,1),(222,1)],c)
ir=[(0,2),(1,2),(3,1)]
for k in(U,S): P(k,'pDiv',3,3,ir,[(0,1),(2,2)],[(1,1),(2,1)],([(0,2)],[(0,1),(1,1)]),'test_poly.rs test_poly_div')
for k in(U,S): P(k,'pMul',3,11,ir,[(0,1),(2,2)],[(1,1),(2,1)],[(0,7),(1,4),(2,8)],'test_poly.rs test_poly_mul')
P(S,'pMul',3,11,ir,[(0,-3),(1,5),(2,-1)],[(0,1),(1,-2),(2,-7)],[(0,8),(1,8),(2,7)],'test_poly.rs test_poly_mul')
for a in([(0,2),(1,2)],[(0,1),(1,2),(2,2)],[(2,1)]): P(U,'pInv',3,3,ir,a,None,[(0,1)],'test_poly.rs test_poly_inversion')
m='[(0, 2), (1, 2), (2, 1), (3, 2), (4, 2), (5, 1), (6, 2), (8, 2), (10, 2), (11, 2)]'
t('test_poly.rs test_poly_inversion_panic',f'Poly.pInv (w := 128) Poly.numPubU {{ l := 11, n := 3, m := {m} }} [0, 1, 2, 0, 2, 2, 0, 0, 2, 0, 0] = panic')
full=re.findall(r'new_full\(\[([^\]]*)\]\)',s)
t('test_poly.rs test_fixed_length','(do let a ← Poly.newSparse (w := 128) kyber [(0, 1), (5, 55), (77, 123)]; Poly.pMul Poly.numPubU kyber a kyberB) = .ok kyberC')
K=(full[1],full[2])
c='test_math_util.rs test_cswap'
for f,z,o in(('cswap','0','0xff'),('cswapBit','0','1')):
    t(c,f'{f} (123#8) 234#8 {z} = (123#8, 234#8)'); t(c,f'{f} (123#8) 234#8 {o} = (234#8, 123#8)')
for f,op in(('csub','-'),('cadd','+'),('cmul','*')):
    for w,x,y in((8,13,234),(64,827629,16)):
        t('test_math_util.rs test_'+f,f'{f} ({x}#{w}) {y}#{w} 0#{w} = {x}#{w} ∧ {f} ({x}#{w}) {y}#{w} maxU = {x}#{w} {op} {y}#{w}')
for w,x,y in((8,13,234),(16,13,234),(32,827629,12),(64,827629,12),(64,16,827629)):
    for k in('pubU','secU'):
        t('test_math_util.rs test_div',f'ctDiv {k} ({x}#{w}) {y}#{w} = (do let q ← {k}.div ({x}#{w}) {y}#{w}; let r ← moduloU ({x}#{w}) {y}#{w}; .ok (q, r))')
t('test_math_util.rs test_zn_inv','euclidInvert pubU (37543865#128) 65537#128 = .ok 37686#128')
for w in(8,16,32,64,128): t('test_machine_integers.rs test_unsigned_secret',f'secPow (3#{w}) 5 = .ok 243#{w}')
for w in(8,16,32,64,128): t('test_machine_integers.rs test_signed_secret',f'secPow (2#{w}) 5 = .ok 32#{w}')
t('test_math_integers.rs test_unsigned_public_integers','(do let a ← AbstractInt.fromLiteral 233 false 1; let b ← AbstractInt.fromLiteral 233 false 2; let c ← AbstractInt.add 233 false a b; let e ← AbstractInt.fromLiteral 233 false 3; .ok (AbstractInt.eq c e)) = .ok true')
t('test_math_integers.rs test_signed_public_integers','(do let a ← AbstractInt.fromLiteral 233 true 1; let b ← AbstractInt.fromLiteral 233 true 2; let c ← AbstractInt.add 233 true a b; let e ← AbstractInt.fromLiteral 233 true 3; .ok (AbstractInt.eq c e)) = .ok true')
for sg,f in(('true','test_int.rs, test_pint.rs'),('false','test_uint.rs, test_puint.rs')):
    t(f+' bounded',f'(do let p ← AbstractInt.pow2 256 {sg} 255; let o ← AbstractInt.fromLiteral 256 {sg} 1; let d ← AbstractInt.sub 256 {sg} p o; let t ← AbstractInt.fromLiteral 256 {sg} 2; let y1 ← AbstractInt.mul 256 {sg} d t; let y2 ← AbstractInt.fromLiteral 256 {sg} 4; AbstractInt.add 256 {sg} y1 y2) = panic')
F='{ bits := 256, n := 2 ^ 255 - 19 }'; Sm='{ bits := 256, n := 255 }'
t('test_pnatmod.rs arith',f'(do let a ← NatMod.fromLiteral {F} 24875808327634644; let b ← NatMod.fromLiteral {F} 91987276365379830; let c ← NatMod.add {F} a b; let e ← NatMod.fromLiteral {F} 116863084693014474; .ok (NatMod.eq c e)) = .ok true')
t('test_pnatmod.rs wrapping',f'(do let x1 ← NatMod.fromLiteral {Sm} 254; let x2 ← NatMod.fromLiteral {Sm} 3; let x3 ← NatMod.add {Sm} x1 x2; let e3 ← NatMod.fromLiteral {Sm} 2; let x4 ← NatMod.fromLiteral {Sm} 5; let x5 ← NatMod.sub {Sm} x3 x4; let e5 ← NatMod.fromLiteral {Sm} 252; let x ← NatMod.fromLiteral {Sm} 4; let x6 ← NatMod.div {Sm} x5 x; let e6 ← NatMod.fromLiteral {Sm} 63; .ok (NatMod.eq x3 e3, NatMod.eq x5 e5, NatMod.eq x6 e6)) = .ok (true, true, true)')
t('test_pnatmod.rs conversion','(do let x ← NatMod.fromHex P256.F (s "6B17D1F2E12C4247F8BCE6E563A440F277037D812DEB33A0F4A13945D898C296"); let y ← NatMod.fromHex P256.F (s "4FE342E2FE1A7F9B8EE7EB4A7C0F9E162BCE33576B315ECECBB6406837BF51F5"); let z ← NatMod.mul P256.F x y; .ok (decide (AbstractInt.toBig z = 0x6B17D1F2E12C4247F8BCE6E563A440F277037D812DEB33A0F4A13945D898C296 * 0x4FE342E2FE1A7F9B8EE7EB4A7C0F9E162BCE33576B315ECECBB6406837BF51F5 % 0xffffffff00000001000000000000000000000000ffffffffffffffffffffffff))) = .ok true')
t('test_ct.rs test_eq','compEq (123456#32) 123456#32 = maxU ∧ compEq (123456#32) 123457#32 = 0')
for w in(8,32,64,128):
    t('test_ct.rs',f'compEq (3#{w}) 3#{w} = ~~~0#{w} ∧ compEq (3#{w}) 42#{w} = 0#{w} ∧ compNe (3#{w}) 42#{w} = ~~~0#{w} ∧ compNe (3#{w}) 3#{w} = 0#{w} ∧ compGte (42#{w}) 3#{w} = ~~~0#{w} ∧ compGte (3#{w}) 42#{w} = 0#{w} ∧ compGte (0#{w}) 3#{w} = 0#{w}')
t('test_public_seq.rs test_byte_sequences','(do let m ← Hex.seqFromHex (s "0388dace60b6a392f328c2b971b2fe78"); Seq.numChunks m 4) = .ok 4')
for i,c in enumerate(('0388dace','60b6a392','f328c2b9','71b2fe78')):
    t('test_public_seq.rs test_byte_sequences','(do let m ← Hex.seqFromHex (s "0388dace60b6a392f328c2b971b2fe78"); Seq.getChunk m 4 %d) = .ok (4, [%s])'%(i,', '.join('0x'+c[2*j:2*j+2] for j in range(4))))
t('test_public_seq.rs test_seq_poly','(do let z ← Poly.polyAdd Poly.numPubU [5#128, 2, 7, 8, 9] [2#128, 1, 0, 2, 4] 0; Poly.polySub Poly.numPubU z [5#128, 2, 7, 8, 9] 0) = .ok [2, 1, 0, 2, 4]')

import os
OUT = os.path.dirname(os.path.dirname(os.path.abspath(__file__))) + '/lean/Verif/Validation/'
MODELS = {'Library': 'Poly NatMod P256 Hex Seq', 'Hashes': 'Hmac Blake2 Hex', 'Sponge': 'Fips202 Hex', 'Aead': 'Aes ChaCha Hex',
          'Curves': 'Curve25519 P256 Hex'}
DIR = {'Library': 'hacspec/tests, abstract-integers/tests, secret-integers/tests'}
SLOW = ('test_poly.rs test_fixed_length',)
os.makedirs(OUT, exist_ok=True)
open(OUT + 'Text.lean', 'w').write('''import Verif.Model.Hex

/-!
# Literals for the tests of the repository
-/

namespace Hacspec.Validation

open SecretInt

/-- The bytes of an ASCII text. -/
def s (t : String) : List U8 := t.toList.map fun c => BitVec.ofNat 8 c.toNat

/-- The bytes written in hexadecimal, `[]` if the text is malformed. -/
def b (t : String) : List U8 := match Hex.seqFromHex (s t) with | .ok v => v | .error _ => []

end Hacspec.Validation
''')
for name, tests in T.items():
    o = ['import Verif.Model.' + m for m in MODELS[name].split()] + ['import Verif.Validation.Text', '', '/-!',
        f"# The tests of `{DIR.get(name, 'spec-examples/tests')}` as tests of the model",
        '', 'Written by `tools/repo_tests.py`.  Tests of the fidelity of the model, not proofs of properties.', '-/', '',
        'namespace Hacspec.Validation', '', 'open SecretInt' + (' MachineInt' if name == 'Library' else ''), '']
    if name == 'Library':
        o += ['/-- `test_poly.rs:145` `RqKyberFixedLength`. -/',
              'def kyber : Poly.PolyTy 128 := { l := 256, n := 3329, m := [(0, 1), (256, 1)] }', '',
              '/-- `test_poly.rs:154`. -/', f'def kyberB : List (BitVec 128) := [{K[0]}]', '',
              '/-- `test_poly.rs:156`. -/', f'def kyberC : List (BitVec 128) := [{K[1]}]', '']
    last = None
    for cite, st in tests:
        if cite != last: o += ['', f'/-! `{cite}` -/', '']
        last = cite
        if name == 'Library' and cite not in SLOW: o += ['set_option maxRecDepth 8000 in', f'example : {st} := by decide +kernel']
        else: o.append(f'#guard {st}')
    o += ['', 'end Hacspec.Validation', '']
    open(OUT + name + '.lean', 'w').write('\n'.join(o).replace('\n\n\n', '\n\n'))
    print(name, len(tests))
