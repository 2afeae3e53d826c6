/-!
# Basic vocabulary of the model

Go values are modelled as immutable Lean values: a `[]byte` is a `List UInt8`, a nil-able pointer is an
`Option`, a Go `error` result or a Go run-time panic is an explicit outcome (`Res`).
A method that mutates through a pointer becomes a function that returns the new value.
-/

namespace Verif

/-- A Go `[]byte` / `string` (contents only; nil and empty are identified unless a definition says otherwise).
(used everywhere, first at protocol/address/address.go:10-13.) -/
abbrev Bytes := List UInt8

/-- protocol/address/address.go:6-13 — `address.Address`; a Go string is a byte string. -/
structure Address where
  name : Bytes
  deviceId : UInt32
deriving DecidableEq, Repr

/-- protocol/direction/direction.go:4-10. -/
inductive Direction where
  | sending
  | receiving
deriving DecidableEq, Repr

/-- Error values.  protocol/perrors/errors.go:11-69 for the named ones; the ad-hoc `errors.New` /
`fmt.Errorf` values of the code base are one constructor each. `store` is an error returned by a
user-supplied store, `io` an error (EOF) of the random reader. -/
inductive Err where
  | invalidKeyLength (expected got : Nat)
  | duplicateMessage
  | noCurrentSession
  | sessionNotFound (a : Address)
  | untrustedIdentity (a : Address)
  | untrustedBundle
  | badBundleSignature
  | unsupportedKeyType
  | messageTooShort
  | unsupportedVersion
  | proto
  | badUUID
  | badIV
  | badCiphertextLength
  | badPadding
  | badAESKey
  | lowOrderPoint
  | invalidUPoint
  | missingSenderChain
  | missingSenderChainKey
  | missingReceiverChain
  | noRemoteIdentity
  | noSession
  | badMAC
  | tooFarInFuture
  | decryptionFailed
  | mustHaveState
  | mustHaveIdentity
  | wrongMessageType
  | noSenderKeyState
  | emptySenderKeyState
  | badSignature
  | encodingTooShort
  | badFingerprintLength
  | badIterations
  | fingerprintVersion
  | store
  | io
deriving DecidableEq, Repr

/-- Outcome of a Go call: normal result, non-nil `error`, or run-time panic.
(the calling convention of all of /repo/protocol, e.g. protocol/session/cipher.go:127-136.) -/
inductive Res (α : Type) where
  | ok (a : α)
  | err (e : Err)
  | panic
deriving DecidableEq, Repr

namespace Res

/-- `if err != nil { return nil, err }`, e.g. protocol/session/cipher.go:29-44; a panic ends the call. -/
@[inline] protected def bind {α β} (x : Res α) (f : α → Res β) : Res β :=
  match x with
  | ok a => f a
  | err e => err e
  | panic => panic

instance : Monad Res where
  pure := ok
  bind := Res.bind

@[simp] theorem pure_eq {α} (a : α) : (pure a : Res α) = ok a := rfl
@[simp] theorem bind_ok {α β} (a : α) (f : α → Res β) : (ok a >>= f) = f a := rfl
@[simp] theorem bind_err {α β} (e : Err) (f : α → Res β) : ((err e : Res α) >>= f) = err e := rfl
@[simp] theorem bind_panic {α β} (f : α → Res β) : ((panic : Res α) >>= f) = panic := rfl

theorem bind_eq_ok {α β} {x : Res α} {f : α → Res β} {b : β} :
    (x >>= f) = ok b ↔ ∃ a, x = ok a ∧ f a = ok b := by
  cases x <;> simp

theorem map_eq {α β} (f : α → β) (x : Res α) : (f <$> x) = (x >>= fun a => ok (f a)) := rfl

/-- Turn a Lean `Option` into a Go `(value, error)` result.
(`(value, error)` results, e.g. protocol/session/record.go:33-36.) -/
def ofOption {α} (e : Err) : Option α → Res α
  | some a => ok a
  | none => err e

@[simp] theorem ofOption_some {α} (e : Err) (a : α) : ofOption e (some a) = ok a := rfl
@[simp] theorem ofOption_none {α} (e : Err) : ofOption e (none : Option α) = err e := rfl

end Res

/-- Stateful Go code: reads and writes a state `σ` and ends in a `Res`. The state reached so far is kept
also when the code returns an error or panics.
(the methods of protocol/session/cipher.go and group_cipher.go, which call stores and readers.) -/
def M (σ α : Type) := σ → Res α × σ

namespace M

/-- `return x, nil`, e.g. protocol/session/cipher.go:170. -/
@[inline] protected def pure {σ α} (a : α) : M σ α := fun s => (.ok a, s)

/-- `if err != nil { return nil, err }`, e.g. protocol/session/cipher.go:29-44; effects so far are kept. -/
@[inline] protected def bind {σ α β} (x : M σ α) (f : α → M σ β) : M σ β := fun s =>
  match x s with
  | (.ok a, s') => f a s'
  | (.err e, s') => (.err e, s')
  | (.panic, s') => (.panic, s')

instance {σ} : Monad (M σ) where
  pure := M.pure
  bind := M.bind

/-- Read the state (Lean notation for the stateful code of protocol/session/cipher.go and group_cipher.go). -/
def get {σ} : M σ σ := fun s => (.ok s, s)
/-- Replace the state (Lean notation for the stateful code of protocol/session/cipher.go and group_cipher.go). -/
def set {σ} (s : σ) : M σ Unit := fun _ => (.ok (), s)
/-- Change the state (Lean notation for the stateful code of protocol/session/cipher.go and group_cipher.go). -/
def modify {σ} (f : σ → σ) : M σ Unit := fun s => (.ok (), f s)
/-- `return nil, err` (Lean notation for the stateful code of protocol/session/cipher.go and group_cipher.go). -/
def throw {σ α} (e : Err) : M σ α := fun s => (.err e, s)
/-- A run-time panic (Lean notation for the stateful code of protocol/session/cipher.go and group_cipher.go). -/
def panic {σ α} : M σ α := fun s => (.panic, s)
/-- Run pure Go code. (e.g. protocol/session/cipher.go:47-58.) -/
def lift {σ α} (r : Res α) : M σ α := fun s => (r, s)
/-- Call and keep the `error` as a value (`x, err := f()` without returning); a panic still propagates.
(e.g. protocol/session/cipher.go:223-236.) -/
def attempt {σ α} (x : M σ α) : M σ (Except Err α) := fun s =>
  match x s with
  | (.ok a, s') => (.ok (.ok a), s')
  | (.err e, s') => (.ok (.error e), s')
  | (.panic, s') => (.panic, s')

@[simp] theorem pure_run {σ α} (a : α) (s : σ) : (pure a : M σ α) s = (.ok a, s) := rfl
theorem bind_run {σ α β} (x : M σ α) (f : α → M σ β) (s : σ) :
    (x >>= f) s = match x s with
      | (.ok a, s') => f a s'
      | (.err e, s') => (.err e, s')
      | (.panic, s') => (.panic, s') := rfl
@[simp] theorem get_run {σ} (s : σ) : (get : M σ σ) s = (.ok s, s) := rfl
@[simp] theorem set_run {σ} (s t : σ) : (set t : M σ Unit) s = (.ok (), t) := rfl
@[simp] theorem modify_run {σ} (f : σ → σ) (s : σ) : (modify f : M σ Unit) s = (.ok (), f s) := rfl
@[simp] theorem throw_run {σ α} (e : Err) (s : σ) : (throw e : M σ α) s = (.err e, s) := rfl
@[simp] theorem panic_run {σ α} (s : σ) : (panic : M σ α) s = (.panic, s) := rfl
@[simp] theorem lift_run {σ α} (r : Res α) (s : σ) : (lift r : M σ α) s = (r, s) := rfl

theorem bind_ok_run {σ α β} {x : M σ α} {f : α → M σ β} {s s' : σ} {a : α}
    (h : x s = (.ok a, s')) : (x >>= f) s = f a s' := by rw [bind_run, h]
theorem bind_err_run {σ α β} {x : M σ α} {f : α → M σ β} {s s' : σ} {e : Err}
    (h : x s = (.err e, s')) : (x >>= f) s = (.err e, s') := by rw [bind_run, h]
theorem bind_panic_run {σ α β} {x : M σ α} {f : α → M σ β} {s s' : σ}
    (h : x s = (.panic, s')) : (x >>= f) s = (.panic, s') := by rw [bind_run, h]

/-- Inversion of a successful sequential composition. -/
theorem bind_eq_ok {σ α β} {x : M σ α} {f : α → M σ β} {s s'' : σ} {b : β} :
    (x >>= f) s = (.ok b, s'') ↔ ∃ a s', x s = (.ok a, s') ∧ f a s' = (.ok b, s'') := by
  rw [bind_run]
  rcases h : x s with ⟨r, s'⟩
  cases r <;> simp [and_assoc]

end M

/-- `io.ReadFull(random, buf)` with `len(buf) = n`: take `n` bytes of the random stream or fail with EOF.
The stream is the remaining output of the caller's `io.Reader`; a failing read still drains it.
(protocol/curve/curve25519/curve25519.go:50-54 and 132-136, protocol/session/group_session.go:75-79.) -/
def readFull (n : Nat) : M Bytes Bytes := fun r =>
  if n ≤ r.length then (.ok (r.take n), r.drop n) else (.err .io, [])

theorem readFull_ok (n : Nat) (r : Bytes) (h : n ≤ r.length) : readFull n r = (.ok (r.take n), r.drop n) := by
  simp [readFull, h]

theorem readFull_short (n : Nat) (r : Bytes) (h : ¬ n ≤ r.length) : readFull n r = (.err .io, []) := by
  simp [readFull, h]

/-- Big-endian value of a byte string (specification helper). (no counterpart in /repo.) -/
def beNat (bs : Bytes) : Nat := bs.foldl (fun a b => a * 256 + b.toNat) 0

/-- Little-endian value of a byte string. (the byte order of protocol/curve/curve25519/curve25519.go:138 and 173.) -/
def leNat : Bytes → Nat
  | [] => 0
  | b :: bs => b.toNat + 256 * leNat bs

/-- `n` little-endian bytes of a number. (the byte order of protocol/curve/curve25519/curve25519.go:138 and 173.) -/
def leBytes : Nat → Nat → Bytes
  | 0, _ => []
  | n + 1, v => UInt8.ofNat (v % 256) :: leBytes n (v / 256)

@[simp] theorem leBytes_length (n v : Nat) : (leBytes n v).length = n := by
  induction n generalizing v with
  | zero => rfl
  | succ n ih => simp [leBytes, ih]

theorem leNat_lt (bs : Bytes) : leNat bs < 256 ^ bs.length := by
  induction bs with
  | nil => simp [leNat]
  | cons b bs ih =>
    have hb : b.toNat < 256 := b.toNat_lt
    simp only [leNat, List.length_cons, Nat.pow_succ]
    omega

theorem leBytes_leNat (bs : Bytes) : leBytes bs.length (leNat bs) = bs := by
  induction bs with
  | nil => rfl
  | cons b bs ih =>
    have hb : b.toNat < 256 := b.toNat_lt
    have h1 : (b.toNat + 256 * leNat bs) % 256 = b.toNat := by omega
    have h2 : (b.toNat + 256 * leNat bs) / 256 = leNat bs := by omega
    simp [leBytes, leNat, h1, h2, ih]

theorem leNat_leBytes (n v : Nat) (h : v < 256 ^ n) : leNat (leBytes n v) = v := by
  induction n generalizing v with
  | zero => simp at h; simp [leBytes, leNat, h]
  | succ n ih =>
    have h2 : v / 256 < 256 ^ n := by
      rw [Nat.pow_succ] at h
      exact Nat.div_lt_of_lt_mul (by rw [Nat.mul_comm]; exact h)
    simp only [leBytes, leNat, ih _ h2]
    have : (UInt8.ofNat (v % 256)).toNat = v % 256 := by
      simp [UInt8.toNat_ofNat']
    rw [this]; omega

end Verif
