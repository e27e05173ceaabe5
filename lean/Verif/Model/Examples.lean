import Verif.Model.SecretInt

/-! # The examples of the `secret-integers` crate: `secret-integers/examples/{dalek,chacha20}.rs` -/

namespace Hacspec.Dalek

open SecretInt

/-- `dalek.rs:24-25` `FieldElement64`: an array of five 64-bit limbs (indexed only with constants below 5). -/
structure Limbs where
  l0 : U64
  l1 : U64
  l2 : U64
  l3 : U64
  l4 : U64
deriving DecidableEq

/-- The machine operations that `mul` uses, as a parameter: `wrapping` is what the code does; an instance that panics
whenever a result does not fit is used to state that nothing wraps. -/
structure Ops where
  add64 : U64 → U64 → M U64
  mul64 : U64 → U64 → M U64
  add128 : U128 → U128 → M U128
  mul128 : U128 → U128 → M U128
  /-- the cast `U64::from(x)` of a 128-bit value where the code relies on the value to fit (`dalek.rs:95-107`, carries) -/
  narrow : U128 → M U64

/-- The operators of `secret-integers` (`lib.rs:263-266`, `504-514`). -/
def wrapping : Ops where
  add64 x y := .ok (SecretInt.add x y)
  mul64 x y := .ok (SecretInt.mul x y)
  add128 x y := .ok (SecretInt.add x y)
  mul128 x y := .ok (SecretInt.mul x y)
  narrow x := .ok (castU 64 x)

/-- `dalek.rs:33` `m`. -/
def m (o : Ops) (x y : U64) : M U128 := o.mul128 (castU 128 x) (castU 128 y)

/-- The shape of `dalek.rs:59-63`: a sum of five products, added from left to right. -/
def sum5 (o : Ops) (x0 y0 x1 y1 x2 y2 x3 y3 x4 y4 : U64) : M U128 := do
  let p0 ← m o x0 y0
  let p1 ← m o x1 y1
  let s ← o.add128 p0 p1
  let p2 ← m o x2 y2
  let s ← o.add128 s p2
  let p3 ← m o x3 y3
  let s ← o.add128 s p3
  let p4 ← m o x4 y4
  o.add128 s p4

/-- `dalek.rs:92` `LOW_51_BIT_MASK`. -/
def mask : U64 := 0x7ffffffffffff

/-- `dalek.rs:53-63`: the coefficients `c0..c4`. -/
def coeffs (o : Ops) (a b : Limbs) : M (U128 × U128 × U128 × U128 × U128) := do
  let b1 ← o.mul64 b.l1 19
  let b2 ← o.mul64 b.l2 19
  let b3 ← o.mul64 b.l3 19
  let b4 ← o.mul64 b.l4 19
  let c0 ← sum5 o a.l0 b.l0 a.l4 b1 a.l3 b2 a.l2 b3 a.l1 b4
  let c1 ← sum5 o a.l1 b.l0 a.l0 b.l1 a.l4 b2 a.l3 b3 a.l2 b4
  let c2 ← sum5 o a.l2 b.l0 a.l1 b.l1 a.l0 b.l2 a.l4 b3 a.l3 b4
  let c3 ← sum5 o a.l3 b.l0 a.l2 b.l1 a.l1 b.l2 a.l0 b.l3 a.l4 b4
  let c4 ← sum5 o a.l4 b.l0 a.l3 b.l1 a.l2 b.l2 a.l1 b.l3 a.l0 b.l4
  .ok (c0, c1, c2, c3, c4)

/-- One of the carries of `dalek.rs:95-105`: `c += U64::from(prev >> 51).into()`. -/
def carryInto (o : Ops) (prev c : U128) : M U128 := do
  let s ← shrU prev 51
  let k ← o.narrow s
  o.add128 c (castU 128 k)

/-- `U64::from(c) & LOW_51_BIT_MASK` (`dalek.rs:96-108`); the cast is meant to truncate. -/
def low (c : U128) : U64 := castU 64 c &&& mask

/-- `dalek.rs:95-129`: carry propagation. -/
def carry (o : Ops) (c : U128 × U128 × U128 × U128 × U128) : M Limbs := do
  let (c0, c1, c2, c3, c4) := c
  let c1 ← carryInto o c0 c1
  let o0 := low c0
  let c2 ← carryInto o c1 c2
  let o1 := low c1
  let c3 ← carryInto o c2 c3
  let o2 := low c2
  let c4 ← carryInto o c3 c4
  let o3 := low c3
  let s ← shrU c4 51
  let k ← o.narrow s
  let o4 := low c4
  let k19 ← o.mul64 k 19
  let o0 ← o.add64 o0 k19
  let t ← shrU o0 51
  let o1 ← o.add64 o1 t
  .ok ⟨o0 &&& mask, o1, o2, o3, o4⟩

/-- The bound asserted in `dalek.rs:77-86`. -/
def Bounded (a : Limbs) : Prop :=
  a.l0.toNat < 2 ^ 54 ∧ a.l1.toNat < 2 ^ 54 ∧ a.l2.toNat < 2 ^ 54 ∧ a.l3.toNat < 2 ^ 54 ∧ a.l4.toNat < 2 ^ 54

instance (a : Limbs) : Decidable (Bounded a) := by unfold Bounded; infer_instance

/-- `dalek.rs:29-133` `mul`, over the given operations. -/
def mulWith (o : Ops) (a b : Limbs) : M Limbs := do
  let c ← coeffs o a b
  require (Bounded a ∧ Bounded b)
  carry o c

/-- `dalek.rs:29-133` `mul`. -/
def mul (a b : Limbs) : M Limbs := mulWith wrapping a b

end Hacspec.Dalek

namespace Hacspec.ChaChaExample

open SecretInt

/-- Rust's `dst[a..b].copy_from_slice(src)`. -/
def copyInto {α : Type} (dst : List α) (a b : Nat) (src : List α) : M (List α) := do
  require (a ≤ b ∧ b ≤ dst.length ∧ src.length = b - a)
  .ok (dst.take a ++ src ++ dst.drop b)

/-- `chacha20.rs:17-21` `line`. -/
def line (a b d s : Nat) (m : List U32) : M (List U32) := do
  let x ← idx m a
  let y ← idx m b
  let m ← setIdx m a (SecretInt.add x y)
  let x ← idx m d
  let y ← idx m a
  let m ← setIdx m d (x ^^^ y)
  let x ← idx m d
  setIdx m d (rotl x s)

/-- `chacha20.rs:24-29` `quarter_round`. -/
def quarterRound (a b c d : Nat) (m : List U32) : M (List U32) := do
  let m ← line a b d 16 m
  let m ← line c d b 12 m
  let m ← line a b d 8 m
  line c d b 7 m

/-- `chacha20.rs:31-41` `double_round`. -/
def doubleRound (m : List U32) : M (List U32) := do
  let m ← quarterRound 0 4 8 12 m
  let m ← quarterRound 1 5 9 13 m
  let m ← quarterRound 2 6 10 14 m
  let m ← quarterRound 3 7 11 15 m
  let m ← quarterRound 0 5 10 15 m
  let m ← quarterRound 1 6 11 12 m
  let m ← quarterRound 2 7 8 13 m
  quarterRound 3 4 9 14 m

/-- `chacha20.rs:45-52` `chacha20_init` (with `chacha20.rs:12-14` `classify_u32s`, the identity on bits); the constants of line 43. -/
def init (k : List U8) (counter : U32) (nonce : List U8) : M (List U32) := do
  let st ← copyInto (List.replicate 16 0) 0 4 [0x61707865, 0x3320646e, 0x79622d32, 0x6b206574]
  let kw ← fromLeBytes 32 k
  let st ← copyInto st 4 12 kw
  let st ← setIdx st 12 counter
  let nw ← fromLeBytes 32 nonce
  copyInto st 13 16 nw

/-- `chacha20.rs:54-62` `chacha20_core`. -/
def core (st : List U32) : M (List U32) := do
  let ws ← loop 10 (fun _ s => doubleRound s) st
  loop 16 (fun i s => do
    let x ← idx s i
    let y ← idx ws i
    setIdx s i (SecretInt.add x y)) st

/-- `chacha20.rs:64-75` `chacha20` and `chacha20_block`. -/
def block (k : List U8) (counter : U32) (nonce : List U8) : M (List U8) := do
  let st ← init k counter nonce
  let st ← core st
  copyInto (List.replicate 64 0) 0 64 (toLeBytes st)

/-- `chacha20.rs:77-85` `xor_block`. -/
def xorBlock (b kb : List U8) : M (List U8) := do
  let v ← loop 64 (fun i out => do
    let x ← idx b i
    let y ← idx kb i
    setIdx out i (x ^^^ y)) (List.replicate 64 0)
  copyInto (List.replicate 64 0) 0 64 v

/-- `chacha20.rs:88-92`: the zero-padded blocks. -/
def blocks (msg : List U8) : M (List (List U8)) :=
  (chunks 64 msg).mapM fun b => copyInto (List.replicate 64 0) 0 b.length b

/-- `chacha20.rs:96-100`: the body of the loop; the state is `(ctr, blocks)`. -/
def step (key nonce : List U8) (i : Nat) (st : U32 × List (List U8)) : M (U32 × List (List U8)) := do
  let kb ← block key st.1 nonce
  let b ← idx st.2 i
  let x ← xorBlock b kb
  let bs ← setIdx st.2 i x
  .ok (SecretInt.add st.1 one, bs)

/-- `chacha20.rs:87-105` `chacha20_counter_mode`; `blocks.len() - 1` panics when there is no block. -/
def counterMode (key : List U8) (counter : U32) (nonce msg : List U8) : M (List U8) := do
  let bs ← blocks msg
  let n := bs.length
  require (1 ≤ n)
  let st ← loop (n - 1) (step key nonce) (counter, bs)
  let last ← idx st.2 (n - 1)
  let kb ← block key st.1 nonce
  let x ← xorBlock last kb
  let bs ← setIdx st.2 (n - 1) x
  .ok (bs.flatten.take msg.length)

/-- `chacha20.rs:107-109` `chacha20_encrypt`. -/
def encrypt (key : List U8) (counter : U32) (nonce msg : List U8) : M (List U8) := counterMode key counter nonce msg

/-- `chacha20.rs:111-113` `chacha20_decrypt`. -/
def decrypt (key : List U8) (counter : U32) (nonce msg : List U8) : M (List U8) := counterMode key counter nonce msg

end Hacspec.ChaChaExample
