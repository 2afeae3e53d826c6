import Verif.Model.Threads
import Verif.Spec.Session
import Verif.Spec.Group

/-!
# Vocabulary for calls that run at the same time

Which calls touch the same entries of the stores, and what it means to run a list of calls under a schedule. Nothing here is
used by the model.
-/

namespace Verif

/-- An entry of a user's stores. -/
inductive Entry where
  /-- the session and the identity key of a remote address -/
  | peer (a : Address)
  | preKey (id : UInt32)
  | signedPreKey (id : UInt32)
deriving DecidableEq

/-- The entries a call may change. -/
def Op.writes : Op → List Entry
  | .encrypt a _ => [.peer a]
  | .decrypt a (.preKey m) => .peer a :: m.preKeyID.toList.map .preKey
  | .decrypt a _ => [.peer a]
  | .bundle a _ => [.peer a]
  | .addPreKey id _ => [.preKey id]
  | .addSignedPreKey id _ => [.signedPreKey id]

/-- The entries a call looks at without changing them. -/
def Op.reads : Op → List Entry
  | .decrypt _ (.preKey m) => [.signedPreKey m.signedPreKeyID]
  | _ => []

/-- One of the two calls may change an entry that the other one uses. -/
def Op.Clash (o p : Op) : Prop :=
  (∃ e ∈ o.writes, e ∈ p.writes ∨ e ∈ p.reads) ∨ ∃ e ∈ p.writes, e ∈ o.reads

/-- The call as a program that stops at every store call. -/
def Op.prog (E : Env) : Op → SProg Out
  | .encrypt a pt => do
    let c ← encryptProg E a pt
    return .ciphertext a c
  | .decrypt a m => do
    let p ← decryptProg E a m
    return .plaintext a p
  | .bundle a b => do
    bundleProg E a b
    return .done
  | .addPreKey id k => .call true (.storePreKey id k) fun _ => .done (.ok .done)
  | .addSignedPreKey id k => .call true (.storeSignedPreKey id k) fun _ => .done (.ok .done)

/-- The goroutines: one for each call of a list, each with its own random bytes and store failures. -/
def threads (E : Env) (cs : List Call) (i : Nat) : Thread StoreOp Bytes Out :=
  match cs[i]? with
  | some c => ⟨c.op.prog E, c.rand, c.faults⟩
  | none => ⟨.done .panic, [], []⟩

/-- Run all the calls at the same time. `schedule` says whose turn it is, by the position in the list; every turn goes up to and
including the next store call. The result has an output for each call that has returned. -/
def runAtOnce (E : Env) (cs : List Call) (schedule : List Nat) (w : World) : List (Option Out) × World :=
  let end_ := interleave (StoreOp.act E) schedule (threads E cs) w
  ((List.range cs.length).map fun i => (end_.1 i).result.map (Out.of id), end_.2)

/-- A call that clashes with an earlier one of the list waits until that one has returned. -/
def InTurn (cs : List Call) (schedule : List Nat) : Prop :=
  schedule.Pairwise fun j i => i < j → ∀ c d, cs[i]? = some c → cs[j]? = some d → ¬ c.op.Clash d.op

/-- Same sessions, pre-keys, identities. -/
def World.SameStores (w v : World) : Prop :=
  w.sessions = v.sessions ∧ w.preKeys = v.preKeys ∧ w.signedPreKeys = v.signedPreKeys ∧ w.known = v.known ∧
    w.identity = v.identity ∧ w.regId = v.regId

/-- The trust decision about an address looks at the identity stored for that address only. -/
def Env.TrustIsLocal (E : Env) : Prop :=
  ∀ known known' a k d, known a = known' a → E.trusted known a k d = E.trusted known' a k d

/-! ## Groups -/

/-- The call as a program that stops at every store call. -/
def GOp.prog (C : Crypto) : GOp → GProg GOut
  | .encrypt a d pt => do
    let c ← groupEncryptProg C a d pt
    return .ciphertext a d c
  | .decrypt a m => do
    let p ← groupDecryptProg C a m
    return .plaintext a m p
  | .process a m => do
    processDistributionProg a m
    return .done
  | .distribute a d => do
    let m ← newDistributionProg C a d
    return .distribution a d m

/-- The goroutines: one for each call of a list. -/
def gThreads (C : Crypto) (cs : List GCall) (i : Nat) : Thread GStoreOp (Bytes × Bytes) GOut :=
  match cs[i]? with
  | some c => ⟨c.op.prog C, (c.rand, c.sysRand), c.faults⟩
  | none => ⟨.done .panic, ([], []), []⟩

/-- Run all the calls at the same time; see `runAtOnce`. -/
def runGAtOnce (C : Crypto) (cs : List GCall) (schedule : List Nat) (w : GWorld) : List (Option GOut) × GWorld :=
  let end_ := interleave GStoreOp.act schedule (gThreads C cs) w
  ((List.range cs.length).map fun i => (end_.1 i).result.map (GOut.of id), end_.2)

/-- A call about the same sender key as an earlier one of the list waits until that one has returned. -/
def GInTurn (cs : List GCall) (schedule : List Nat) : Prop :=
  schedule.Pairwise fun j i => i < j → ∀ c d, cs[i]? = some c → cs[j]? = some d → c.op.key ≠ d.op.key

end Verif
