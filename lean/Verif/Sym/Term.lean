/-
Symbolic cryptography (Dolev-Yao): messages are terms of a free algebra, an attacker can apply every function and take
apart what it holds the key for, and nothing else. Trusted: that BLAKE3/SHA3 behave as free one-way functions, ML-KEM plus
ChaCha20-Poly1305 ("HPKE" in the code) as ideal public-key encryption, ChaCha20-Poly1305 as ideal symmetric encryption.
-/
namespace Verif.Sym

inductive Term
  /-- a random value -/
  | fresh (n : Nat)
  /-- public constants -/
  | lit (s : String)
  | num (n : Nat)
  | pair (a b : Term)
  /-- any keyed or unkeyed hash: the key, label and message are in the argument -/
  | hash (t : Term)
  /-- the public key of the key pair generated from seed `s` -/
  | pk (s : Term)
  /-- encryption to a public key; `r` is the randomness -/
  | aenc (k m : Term) (r : Nat)
  /-- symmetric encryption -/
  | senc (k nonce m : Term)
  deriving DecidableEq

/-- What can be computed from the set `K`. -/
inductive Derives (K : Term → Prop) : Term → Prop
  | ax {t} : K t → Derives K t
  | lit (s) : Derives K (.lit s)
  | num (n) : Derives K (.num n)
  | pair {a b} : Derives K a → Derives K b → Derives K (.pair a b)
  | fst {a b} : Derives K (.pair a b) → Derives K a
  | snd {a b} : Derives K (.pair a b) → Derives K b
  | hash {t} : Derives K t → Derives K (.hash t)
  | pk {s} : Derives K s → Derives K (.pk s)
  | aenc {k m} (r) : Derives K k → Derives K m → Derives K (.aenc k m r)
  | adec {s m r} : Derives K (.aenc (.pk s) m r) → Derives K s → Derives K m
  | senc {k n m} : Derives K k → Derives K n → Derives K m → Derives K (.senc k n m)
  | sdec {k n m} : Derives K (.senc k n m) → Derives K k → Derives K m

theorem Derives.mono {K K' : Term → Prop} (h : ∀ t, K t → K' t) {t : Term} (d : Derives K t) : Derives K' t := by
  induction d with
  | ax hk => exact .ax (h _ hk)
  | lit s => exact .lit s
  | num n => exact .num n
  | pair _ _ a b => exact .pair a b
  | fst _ a => exact .fst a
  | snd _ a => exact .snd a
  | hash _ a => exact .hash a
  | pk _ a => exact .pk a
  | aenc r _ _ a b => exact .aenc r a b
  | adec _ _ a b => exact .adec a b
  | senc _ _ _ a b c => exact .senc a b c
  | sdec _ _ a b => exact .sdec a b

/-- An upper bound for what can be computed: random values in `sec` are secret; hashes in `leak` are known although their
input may not be. -/
def Pub (sec : Nat → Prop) (leak : Term → Prop) : Term → Prop
  | .fresh n => ¬ sec n
  | .lit _ => True
  | .num _ => True
  | .pair a b => Pub sec leak a ∧ Pub sec leak b
  | .hash t => leak (.hash t) ∨ Pub sec leak t
  | .pk _ => True
  | .aenc (.pk s) m _ => Pub sec leak s → Pub sec leak m
  | .aenc _ _ _ => True
  | .senc k _ m => Pub sec leak k → Pub sec leak m

theorem pub_of_derives {K : Term → Prop} {sec : Nat → Prop} {leak : Term → Prop} (hK : ∀ t, K t → Pub sec leak t)
    {t : Term} (d : Derives K t) : Pub sec leak t := by
  induction d with
  | ax hk => exact hK _ hk
  | lit s => trivial
  | num n => trivial
  | pair _ _ a b => exact ⟨a, b⟩
  | fst _ a => exact a.1
  | snd _ a => exact a.2
  | hash _ a => exact .inr a
  | pk _ _ => trivial
  | @aenc k m r _ _ _ b =>
    cases k <;> first | exact trivial | exact fun _ => b
  | adec _ _ a b => exact a b
  | senc _ _ _ _ _ c => exact fun _ => c
  | sdec _ _ a b => exact a b

end Verif.Sym
