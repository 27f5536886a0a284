#!/usr/bin/env python3
"""Compare the model with the test vectors of the repository (test/primitive/config/*.json): a test of the model's fidelity, not a proof.
Writes /tmp/vectors.lean, to be run by `cd /verif/lean && lake env lean --run /tmp/vectors.lean`; prints the number of vectors and every mismatch."""
import json, glob, os, re
out = ['''import Verif
open Milo
def hex (s : String) : List Byte := (Spec.Codec.hexDecode (s.toList.map Spec.Codec.ascii)).getD [0xde, 0xad]
def txt (s : String) : List Byte := s.toList.map Spec.Codec.ascii
def junk : Nat → Nat → BitVec 32 := fun i j => BitVec.ofNat 32 (i * 77 + j)
def rt : Host := ⟨.little, false, none⟩
def ce : Host := ⟨.little, true, none⟩
def be : Host := ⟨.big, false, none⟩
def ni : Host := ⟨.little, false, some junk⟩
def hosts : List Host := [rt, ce, be]
def lhosts : List Host := [rt, ce]
def zeros (n : Nat) : List Byte := List.replicate n 0
def tHash (a : ShaAlg) (m d : List Byte) : Bool :=
  hosts.all fun h => HashApie.oneshot (a.impl h a.size) true m (zeros d.length) d.length == some (d, d.length)
def tMac (hs : List Host) (a : MacAlg) (k m d : List Byte) : Bool :=
  hs.all fun h => MacApie.oneshot (a.impl h a.size) k m (zeros d.length) d.length == some (d, d.length)
def mem2 (a b c : List Byte) : Mem := fun i => if i = 0 then a else if i = 1 then b else c
def tHkdf (a : ShaAlg) (ikm salt info key : List Byte) : Bool :=
  [rt].all fun h => Kdf.oneshot (Hkdf.impl h ((MacAlg.hmac a a.size).impl h a.size)) (mem2 ikm salt info) ⟨⟨0, ikm.length⟩, ⟨1, salt.length⟩, ⟨2, info.length⟩⟩ (zeros key.length) key.length
    == some (key, key.length)
def tPbkdf (a : ShaAlg) (ikm salt : List Byte) (it : Nat) (key : List Byte) : Bool :=
  [rt].all fun h => Kdf.oneshot (Pbkdf2.impl h ((MacAlg.hmac a a.size).impl h a.size) (fun _ => 3)) (mem2 ikm salt []) ⟨⟨0, ikm.length⟩, ⟨1, salt.length⟩, BitVec.ofNat 32 it⟩ (zeros key.length) key.length
    == some (key, key.length)
-- (The assembly backends are left out here: registers are functions, evaluating them naively is exponential.)
def bks : List CipherBackend := [.portable]
def tCipher (dec : Bool) (k iv x y : List Byte) : Bool :=
  hosts.all fun h => bks.all fun b =>
    (Cipher.oneshot h (b.impl h) k iv (if dec then .decryptC x ⟨true, []⟩ else .encryptC x ⟨true, []⟩)) == some [(y, y.length)]
def tSeal (k iv ad x y d : List Byte) : Bool :=
  lhosts.all fun h => bks.all fun b => AeadApie.sealValue h b k iv ad x == some (⟨true, y⟩, ⟨false, d⟩)
def tOpen (k iv ad x d y : List Byte) : Bool :=
  lhosts.all fun h => bks.all fun b => AeadApie.openValue h b true k iv ad x d == some (.returned (y, .none))
def tEnc (C : Codec.Impl) (x y : List Byte) : Bool := Codec.encodeValue C x == some y
def tDec (C : Codec.Impl) (x y : List Byte) : Bool := Codec.decodeValue C x == some (.returned y)
def chk (name : String) (b : Unit → Bool) : StateT (Nat × Nat) IO Unit := do
  let (n, bad) ← get
  if b () then set (n + 1, bad) else
    IO.println s!"MISMATCH {name}"
    set (n + 1, bad + 1)
''']
names = []
def h(s): return f'(hex "{s}")'
LIM = int(os.environ.get('LIM', '1000'))
for f in sorted(glob.glob('/repo/test/primitive/config/*.json')):
    b = os.path.basename(f)[:-5]
    lines = []
    for v in json.load(open(f))['payload']['vectors']:
        for d in v['data'][:LIM]:
            g = d.get
            n = f'{b}/{d["id"]}'
            a = re.search(r'sha_\d_\d+(_\d+)?', b)
            a = '.' + a.group(0) if a else ''
            if b.startswith('hash'): e = f'tHash {a} {h(g("message"))} {h(g("digest"))}'
            elif b.startswith('mac_hmac'): e = f'tMac hosts (.hmac {a} (ShaAlg.size {a})) {h(g("key"))} {h(g("message"))} {h(g("digest"))}'
            elif b == 'mac_poly_1305': e = f'tMac lhosts .poly_1305 {h(g("key"))} {h(g("message"))} {h(g("digest"))}'
            elif 'hkdf' in b: e = f'tHkdf {a} {h(g("ikm"))} {h(g("salt"))} {h(g("info"))} {h(g("key"))}'
            elif 'pbkdf' in b: e = f'tPbkdf {a} {h(g("ikm"))} {h(g("salt"))} {g("iterations")} {h(g("key"))}'
            elif b == 'cipher_chacha_20_encrypt': e = f'tCipher false {h(g("key"))} {h(g("iv"))} {h(g("plaintext"))} {h(g("ciphertext"))}'
            elif b == 'cipher_chacha_20_decrypt': e = f'tCipher true {h(g("key"))} {h(g("iv"))} {h(g("ciphertext"))} {h(g("plaintext"))}'
            elif b.endswith('1305_encrypt'): e = f'tSeal {h(g("key"))} {h(g("iv"))} {h(g("aad"))} {h(g("plaintext"))} {h(g("ciphertext"))} {h(g("digest"))}'
            elif b.endswith('1305_decrypt'): e = f'tOpen {h(g("key"))} {h(g("iv"))} {h(g("aad"))} {h(g("ciphertext"))} {h(g("digest"))} {h(g("plaintext"))}'
            elif b == 'codec_base_16_encode': e = f'tEnc (Codec.base16 true) {h(g("from"))} (txt "{g("to")}")'
            elif b == 'codec_base_16_decode': e = f'tDec (Codec.base16 true) (txt "{g("from")}") {h(g("to"))}'
            elif b == 'codec_base_64_encode': e = f'tEnc (Codec.base64 true) {h(g("from"))} (txt "{g("to")}")'
            elif b == 'codec_base_64_decode': e = f'tDec (Codec.base64 true) (txt "{g("from")}") {h(g("to"))}'
            else: raise SystemExit(b)
            lines.append(f'  ("{n}", fun _ => {e})')
    out.append(f'def {b} : List (String × (Unit → Bool)) := [\n' + ',\n'.join(lines) + ']\n')
    names.append(b)
out.append('def main : IO Unit := do')
for n in names:
    out.append(f'  let (_, r) ← ({n}.forM fun p => chk p.1 p.2).run (0, 0)\n  IO.println s!"{n}: {{r.1}} vectors, {{r.2}} mismatches"\n  (← IO.getStdout).flush')
open('/tmp/vectors.lean', 'w').write('\n'.join(out) + '\n')
