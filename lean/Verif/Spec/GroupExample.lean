import Verif.Spec.Group
import Verif.Spec.Example

/-!
# A concrete group conversation

Alice creates a sender key and sends three messages; Bob processes the distribution message.
-/

namespace Verif.Ex

open Verif

def gCopying : GEnv := ⟨toy, false⟩
def gSharing : GEnv := ⟨toy, true⟩

def dist : DistId := ⟨List.replicate 16 7, by simp⟩

def group0 : GWorld := { records := fun _ => none, rand := randomness 1, sysRand := randomness 9, faults := [] }

/-- Alice has created their sender key. -/
def galice1 : GWorld := (newSenderKeyDistribution toy alice dist group0).2

def outDist (x : Res DistributionMsg × GWorld) : DistributionMsg :=
  match x.1 with
  | .ok d => d
  | _ => newDistribution 0 dist 0 0 [] (pair 1).pub

def outGroup (x : Res SenderKeyMsg × GWorld) : SenderKeyMsg :=
  match x.1 with
  | .ok m => m
  | _ => ⟨0, dist, 0, 0, [], []⟩

def d1 : DistributionMsg := outDist (newSenderKeyDistribution toy alice dist group0)

def gSend (pt : Bytes) (w : GWorld) : Res SenderKeyMsg × GWorld :=
  groupEncrypt toy false alice dist pt { w with rand := randomness 3 }

/-- Alice has sent `g1`, `g2`, `g3`. -/
def galice2 : GWorld := (gSend [1, 2, 3] galice1).2
def galice3 : GWorld := (gSend [4] galice2).2
def g1 : SenderKeyMsg := outGroup (gSend [1, 2, 3] galice1)
def g2 : SenderKeyMsg := outGroup (gSend [4] galice2)
def g3 : SenderKeyMsg := outGroup (gSend [5, 5] galice3)

/-- Bob has processed the distribution message. -/
def gbob1 : GWorld := (processDistribution false alice d1 group0).2
/-- Bob has received `g3`. -/
def gbob2 : GWorld := (groupDecrypt toy false alice g3 gbob1).2

theorem g3_delivered : (groupDecrypt toy false alice g3 gbob1).1 = .ok [5, 5] := by decide +kernel
theorem g1_delivered : (groupDecrypt toy false alice g1 gbob2).1 = .ok [1, 2, 3] := by decide +kernel

end Verif.Ex
