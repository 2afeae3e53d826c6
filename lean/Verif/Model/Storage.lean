import Verif.Model.Message

/-!
# Stored session structures (`protocol/proto/v1/storage.proto`) and their serialisation

proto3: scalar and byte fields with the default value are not emitted, sub-messages are optional pointers.
Only `SessionStructure` is ever serialised by the library (protocol/session/state.go:359-362,
protocol/session/record.go:31-41, 56-67).
-/

namespace Verif

open Wire (Field Val encFields parseFields)

/-- proto3 `uint32`: emitted unless zero.
(protocol/session/state.go:360, fields of protocol/proto/v1/storage.proto.) -/
def nzVarint (num : Nat) (v : UInt32) : List Field := if v = 0 then [] else [⟨num, .varint v.toNat⟩]
/-- proto3 `bytes`: emitted unless empty.
(protocol/session/state.go:360, fields of protocol/proto/v1/storage.proto.) -/
def nzLen (num : Nat) (v : Bytes) : List Field := if v = [] then [] else [⟨num, .len v⟩]
/-- proto3 `int32`: sign-extended to 64 bits. (protocol/proto/v1/storage.proto:36.) -/
def int32Varint (v : Int32) : Nat :=
  if v.toUInt32.toNat < 2147483648 then v.toUInt32.toNat else v.toUInt32.toNat + (18446744073709551616 - 4294967296)
/-- protocol/proto/v1/storage.proto:36 — proto3 `int32`, emitted unless zero. -/
def nzInt32 (num : Nat) (v : Int32) : List Field := if v = 0 then [] else [⟨num, .varint (int32Varint v)⟩]
/-- Optional sub-message, already serialised.
(protocol/session/state.go:360, fields of protocol/proto/v1/storage.proto.) -/
def optMsg (num : Nat) (v : Option Bytes) : List Field := optLen num v

/-- protocol/proto/v1/storage.proto:17-20. -/
structure PBChainKey where
  index : UInt32 := 0
  key : Bytes := []
deriving DecidableEq

/-- protocol/proto/v1/storage.proto:24-29. -/
structure PBMessageKey where
  index : UInt32 := 0
  cipherKey : Bytes := []
  macKey : Bytes := []
  iv : Bytes := []
deriving DecidableEq

/-- protocol/proto/v1/storage.proto:13-32. -/
structure PBChain where
  senderRatchetKey : Bytes := []
  senderRatchetKeyPrivate : Bytes := []
  chainKey : Option PBChainKey := none
  messageKeys : List PBMessageKey := []
deriving DecidableEq

/-- protocol/proto/v1/storage.proto:34-38. -/
structure PBPendingPreKey where
  preKeyId : UInt32 := 0
  baseKey : Bytes := []
  signedPreKeyId : Int32 := 0
deriving DecidableEq

/-- protocol/proto/v1/storage.proto:12-58 — `SessionStructure`; `session.State` (protocol/session/state.go:31-33)
is a pointer to one, and protocol/session/state.go:46-52, 98-104 and 347-357 are its getters and setters. Simplification: unknown fields of a parsed structure are dropped, the Go library would keep
and re-emit them. -/
structure SState where
  sessionVersion : UInt32 := 0
  localIdentityPublic : Bytes := []
  remoteIdentityPublic : Bytes := []
  rootKey : Bytes := []
  previousCounter : UInt32 := 0
  senderChain : Option PBChain := none
  receiverChains : List PBChain := []
  pendingPreKey : Option PBPendingPreKey := none
  remoteRegistrationId : UInt32 := 0
  localRegistrationId : UInt32 := 0
  aliceBaseKey : Bytes := []
deriving DecidableEq

/-- protocol/proto/v1/storage.proto:17-20 — proto.Marshal. -/
def PBChainKey.marshal (m : PBChainKey) : Bytes := encFields (nzVarint 1 m.index ++ nzLen 2 m.key)

/-- protocol/proto/v1/storage.proto:17-20 — proto.Unmarshal of one field. -/
def PBChainKey.field (m : PBChainKey) (f : Field) : PBChainKey :=
  match f.num, f.val with
  | 1, .varint v => { m with index := UInt32.ofNat v }
  | 2, .len b => { m with key := b }
  | _, _ => m

/-- Unmarshal into an existing message (proto merge semantics). (protocol/proto/v1/storage.proto:17-20.) -/
def PBChainKey.merge (m : PBChainKey) (bs : Bytes) : Option PBChainKey :=
  (parseFields bs).map fun fs => fs.foldl PBChainKey.field m

/-- protocol/proto/v1/storage.proto:24-29 — proto.Marshal. -/
def PBMessageKey.marshal (m : PBMessageKey) : Bytes :=
  encFields (nzVarint 1 m.index ++ nzLen 2 m.cipherKey ++ nzLen 3 m.macKey ++ nzLen 4 m.iv)

/-- protocol/proto/v1/storage.proto:24-29 — proto.Unmarshal of one field. -/
def PBMessageKey.field (m : PBMessageKey) (f : Field) : PBMessageKey :=
  match f.num, f.val with
  | 1, .varint v => { m with index := UInt32.ofNat v }
  | 2, .len b => { m with cipherKey := b }
  | 3, .len b => { m with macKey := b }
  | 4, .len b => { m with iv := b }
  | _, _ => m

/-- protocol/proto/v1/storage.proto:24-29 — proto.Unmarshal into an existing message. -/
def PBMessageKey.merge (m : PBMessageKey) (bs : Bytes) : Option PBMessageKey :=
  (parseFields bs).map fun fs => fs.foldl PBMessageKey.field m

/-- protocol/proto/v1/storage.proto:13-32 — proto.Marshal. -/
def PBChain.marshal (m : PBChain) : Bytes :=
  encFields (nzLen 1 m.senderRatchetKey ++ nzLen 2 m.senderRatchetKeyPrivate ++
    optMsg 3 (m.chainKey.map PBChainKey.marshal) ++
    m.messageKeys.map fun k => ⟨4, .len k.marshal⟩)

/-- protocol/proto/v1/storage.proto:13-32 — proto.Unmarshal of one field. -/
def PBChain.field (m : PBChain) (f : Field) : Option PBChain :=
  match f.num, f.val with
  | 1, .len b => some { m with senderRatchetKey := b }
  | 2, .len b => some { m with senderRatchetKeyPrivate := b }
  | 3, .len b => (PBChainKey.merge (m.chainKey.getD {}) b).map fun c => { m with chainKey := some c }
  | 4, .len b => (PBMessageKey.merge {} b).map fun k => { m with messageKeys := m.messageKeys ++ [k] }
  | _, _ => some m

/-- protocol/proto/v1/storage.proto:13-32 — proto.Unmarshal into an existing message. -/
def PBChain.merge (m : PBChain) (bs : Bytes) : Option PBChain :=
  (parseFields bs).bind fun fs => fs.foldlM PBChain.field m

/-- protocol/proto/v1/storage.proto:34-38 — proto.Marshal. -/
def PBPendingPreKey.marshal (m : PBPendingPreKey) : Bytes :=
  encFields (nzVarint 1 m.preKeyId ++ nzLen 2 m.baseKey ++ nzInt32 3 m.signedPreKeyId)

/-- protocol/proto/v1/storage.proto:34-38 — proto.Unmarshal of one field. -/
def PBPendingPreKey.field (m : PBPendingPreKey) (f : Field) : PBPendingPreKey :=
  match f.num, f.val with
  | 1, .varint v => { m with preKeyId := UInt32.ofNat v }
  | 2, .len b => { m with baseKey := b }
  | 3, .varint v => { m with signedPreKeyId := Int32.ofUInt32 (UInt32.ofNat v) }
  | _, _ => m

/-- protocol/proto/v1/storage.proto:34-38 — proto.Unmarshal into an existing message. -/
def PBPendingPreKey.merge (m : PBPendingPreKey) (bs : Bytes) : Option PBPendingPreKey :=
  (parseFields bs).map fun fs => fs.foldl PBPendingPreKey.field m

/-- protocol/session/state.go:359-362 — `State.Bytes` = proto.Marshal of the structure. -/
def SState.marshal (m : SState) : Bytes :=
  encFields (nzVarint 1 m.sessionVersion ++ nzLen 2 m.localIdentityPublic ++ nzLen 3 m.remoteIdentityPublic ++
    nzLen 4 m.rootKey ++ nzVarint 5 m.previousCounter ++ optMsg 6 (m.senderChain.map PBChain.marshal) ++
    (m.receiverChains.map fun c => ⟨7, .len c.marshal⟩) ++
    optMsg 9 (m.pendingPreKey.map PBPendingPreKey.marshal) ++ nzVarint 10 m.remoteRegistrationId ++
    nzVarint 11 m.localRegistrationId ++ nzLen 13 m.aliceBaseKey)

/-- protocol/session/record.go:33 and 60, protocol/proto/v1/storage.proto:12-58 — proto.Unmarshal of one field. -/
def SState.field (m : SState) (f : Field) : Option SState :=
  match f.num, f.val with
  | 1, .varint v => some { m with sessionVersion := UInt32.ofNat v }
  | 2, .len b => some { m with localIdentityPublic := b }
  | 3, .len b => some { m with remoteIdentityPublic := b }
  | 4, .len b => some { m with rootKey := b }
  | 5, .varint v => some { m with previousCounter := UInt32.ofNat v }
  | 6, .len b => (PBChain.merge (m.senderChain.getD {}) b).map fun c => { m with senderChain := some c }
  | 7, .len b => (PBChain.merge {} b).map fun c => { m with receiverChains := m.receiverChains ++ [c] }
  | 9, .len b => (PBPendingPreKey.merge (m.pendingPreKey.getD {}) b).map fun c => { m with pendingPreKey := some c }
  | 10, .varint v => some { m with remoteRegistrationId := UInt32.ofNat v }
  | 11, .varint v => some { m with localRegistrationId := UInt32.ofNat v }
  | 13, .len b => some { m with aliceBaseKey := b }
  | _, _ => some m

/-- protocol/session/record.go:33 and 60, protocol/proto/v1/storage.proto:12-58 — proto.Unmarshal into an existing message. -/
def SState.merge (m : SState) (bs : Bytes) : Option SState :=
  (parseFields bs).bind fun fs => fs.foldlM SState.field m

/-- proto.Unmarshal of a `SessionStructure` (protocol/session/record.go:31-36, 59-63). -/
def SState.unmarshal (bs : Bytes) : Res SState := Res.ofOption .proto (SState.merge {} bs)

/-! ## Round trip -/

theorem nzVarint_ok (n : Nat) (h1 : 1 ≤ n) (h2 : n < 536870912) (v : UInt32) : ∀ f ∈ nzVarint n v, f.Ok := by
  simp only [nzVarint]
  split
  · simp
  · simp only [List.mem_singleton]
    rintro f rfl
    refine ⟨h1, h2, ?_⟩
    have := v.toNat_lt
    simp only
    omega

theorem int32Varint_lt (v : Int32) : int32Varint v < 2 ^ 64 := by
  have := v.toUInt32.toNat_lt
  unfold int32Varint
  split <;> omega

theorem nzInt32_ok (n : Nat) (h1 : 1 ≤ n) (h2 : n < 536870912) (v : Int32) : ∀ f ∈ nzInt32 n v, f.Ok := by
  simp only [nzInt32]
  split
  · simp
  · simp only [List.mem_singleton]
    rintro f rfl
    exact ⟨h1, h2, int32Varint_lt v⟩

theorem int32_round (v : Int32) : Int32.ofUInt32 (UInt32.ofNat (int32Varint v)) = v := by
  have hlt := v.toUInt32.toNat_lt
  have : UInt32.ofNat (int32Varint v) = v.toUInt32 := by
    apply UInt32.toNat_inj.mp
    rw [UInt32.toNat_ofNat']
    unfold int32Varint
    split <;> omega
  rw [this]

theorem nzLen_ok (n : Nat) (h1 : 1 ≤ n) (h2 : n < 536870912) (v : Bytes) (hv : v.length < 2 ^ 64) :
    ∀ f ∈ nzLen n v, f.Ok := by
  simp only [nzLen]
  split
  · simp
  · simp only [List.mem_singleton]
    rintro f rfl
    exact ⟨h1, h2, hv⟩

theorem encField_len_le (n : Nat) (b : Bytes) : b.length ≤ (Wire.encField ⟨n, .len b⟩).length := by
  simp only [Wire.encField, List.length_append]; omega

theorem len_le_encFields {n : Nat} {b : Bytes} {fs : List Field} (h : (⟨n, .len b⟩ : Field) ∈ fs) :
    b.length ≤ (encFields fs).length := by
  induction fs with
  | nil => simp at h
  | cons f fs ih =>
    have e : encFields (f :: fs) = Wire.encField f ++ encFields fs := by simp [encFields]
    rw [e, List.length_append]
    rcases List.mem_cons.mp h with rfl | h
    · have := encField_len_le n b; omega
    · have := ih h; omega

/-- All fields are emittable when every payload is shorter than the whole and the whole fits 64 bits. -/
theorem fieldsOk_of_length {fs : List Field} (hlen : (encFields fs).length < 2 ^ 64)
    (h : ∀ f ∈ fs, 1 ≤ f.num ∧ f.num < 536870912 ∧ ((∃ v, f.val = .varint v ∧ v < 2 ^ 64) ∨ ∃ b, f.val = .len b)) :
    ∀ f ∈ fs, f.Ok := by
  intro f hf
  obtain ⟨h1, h2, h3⟩ := h f hf
  obtain ⟨n, v⟩ := f
  refine ⟨h1, h2, ?_⟩
  rcases h3 with ⟨w, rfl, hw⟩ | ⟨b, rfl⟩
  · exact hw
  · have := len_le_encFields hf
    simp only
    omega

theorem shape_nzVarint (n : Nat) (h1 : 1 ≤ n) (h2 : n < 536870912) (v : UInt32) :
    ∀ f ∈ nzVarint n v, 1 ≤ f.num ∧ f.num < 536870912 ∧ ((∃ w, f.val = .varint w ∧ w < 2 ^ 64) ∨ ∃ b, f.val = .len b) := by
  intro f hf
  have hok := nzVarint_ok n h1 h2 v f hf
  simp only [nzVarint] at hf
  split at hf
  · simp at hf
  · simp only [List.mem_singleton] at hf; subst hf; exact ⟨h1, h2, Or.inl ⟨_, rfl, hok.2.2⟩⟩

theorem shape_nzInt32 (n : Nat) (h1 : 1 ≤ n) (h2 : n < 536870912) (v : Int32) :
    ∀ f ∈ nzInt32 n v, 1 ≤ f.num ∧ f.num < 536870912 ∧ ((∃ w, f.val = .varint w ∧ w < 2 ^ 64) ∨ ∃ b, f.val = .len b) := by
  intro f hf
  simp only [nzInt32] at hf
  split at hf
  · simp at hf
  · simp only [List.mem_singleton] at hf; subst hf; exact ⟨h1, h2, Or.inl ⟨_, rfl, int32Varint_lt v⟩⟩

theorem shape_nzLen (n : Nat) (h1 : 1 ≤ n) (h2 : n < 536870912) (v : Bytes) :
    ∀ f ∈ nzLen n v, 1 ≤ f.num ∧ f.num < 536870912 ∧ ((∃ w, f.val = .varint w ∧ w < 2 ^ 64) ∨ ∃ b, f.val = .len b) := by
  intro f hf
  simp only [nzLen] at hf
  split at hf
  · simp at hf
  · simp only [List.mem_singleton] at hf; subst hf; exact ⟨h1, h2, Or.inr ⟨_, rfl⟩⟩

theorem shape_optMsg (n : Nat) (h1 : 1 ≤ n) (h2 : n < 536870912) (v : Option Bytes) :
    ∀ f ∈ optMsg n v, 1 ≤ f.num ∧ f.num < 536870912 ∧ ((∃ w, f.val = .varint w ∧ w < 2 ^ 64) ∨ ∃ b, f.val = .len b) := by
  intro f hf
  cases v with
  | none => simp [optMsg, optLen] at hf
  | some v => simp only [optMsg, optLen, List.mem_singleton] at hf; subst hf; exact ⟨h1, h2, Or.inr ⟨_, rfl⟩⟩

theorem shape_map {α} (n : Nat) (h1 : 1 ≤ n) (h2 : n < 536870912) (l : List α) (g : α → Bytes) :
    ∀ f ∈ l.map (fun a => (⟨n, .len (g a)⟩ : Field)),
      1 ≤ f.num ∧ f.num < 536870912 ∧ ((∃ w, f.val = .varint w ∧ w < 2 ^ 64) ∨ ∃ b, f.val = .len b) := by
  intro f hf
  obtain ⟨a, _, rfl⟩ := List.mem_map.mp hf
  exact ⟨h1, h2, Or.inr ⟨_, rfl⟩⟩

theorem PBChainKey.merge_marshal (m : PBChainKey) (h : m.marshal.length < 2 ^ 64) :
    PBChainKey.merge {} m.marshal = some m := by
  have hok := fieldsOk_of_length (fs := nzVarint 1 m.index ++ nzLen 2 m.key) h (by
    intro f hf
    rcases List.mem_append.mp hf with hf | hf
    · exact shape_nzVarint 1 (by omega) (by omega) _ f hf
    · exact shape_nzLen 2 (by omega) (by omega) _ f hf)
  rw [PBChainKey.merge, PBChainKey.marshal, Wire.parseFields_enc _ hok]
  obtain ⟨i, k⟩ := m
  by_cases hi : i = 0 <;> by_cases hk : k = [] <;> simp [nzVarint, nzLen, PBChainKey.field, hi, hk]

theorem PBMessageKey.merge_marshal (m : PBMessageKey) (h : m.marshal.length < 2 ^ 64) :
    PBMessageKey.merge {} m.marshal = some m := by
  have hok := fieldsOk_of_length (fs := nzVarint 1 m.index ++ nzLen 2 m.cipherKey ++ nzLen 3 m.macKey ++ nzLen 4 m.iv) h (by
    intro f hf
    simp only [List.mem_append] at hf
    rcases hf with ((hf | hf) | hf) | hf
    · exact shape_nzVarint 1 (by omega) (by omega) _ f hf
    · exact shape_nzLen 2 (by omega) (by omega) _ f hf
    · exact shape_nzLen 3 (by omega) (by omega) _ f hf
    · exact shape_nzLen 4 (by omega) (by omega) _ f hf)
  rw [PBMessageKey.merge, PBMessageKey.marshal, Wire.parseFields_enc _ hok]
  obtain ⟨i, a, b, c⟩ := m
  by_cases hi : i = 0 <;> by_cases ha : a = [] <;> by_cases hb : b = [] <;> by_cases hc : c = [] <;>
    simp [nzVarint, nzLen, PBMessageKey.field, hi, ha, hb, hc]

theorem PBPendingPreKey.merge_marshal (m : PBPendingPreKey) (h : m.marshal.length < 2 ^ 64) :
    PBPendingPreKey.merge {} m.marshal = some m := by
  have hok := fieldsOk_of_length (fs := nzVarint 1 m.preKeyId ++ nzLen 2 m.baseKey ++ nzInt32 3 m.signedPreKeyId) h (by
    intro f hf
    simp only [List.mem_append] at hf
    rcases hf with (hf | hf) | hf
    · exact shape_nzVarint 1 (by omega) (by omega) _ f hf
    · exact shape_nzLen 2 (by omega) (by omega) _ f hf
    · exact shape_nzInt32 3 (by omega) (by omega) _ f hf)
  rw [PBPendingPreKey.merge, PBPendingPreKey.marshal, Wire.parseFields_enc _ hok]
  obtain ⟨i, a, b⟩ := m
  by_cases hi : i = 0 <;> by_cases ha : a = [] <;> by_cases hb : b = 0 <;>
    simp [nzVarint, nzLen, nzInt32, PBPendingPreKey.field, hi, ha, hb, int32_round]

theorem foldlM_append' {α β : Type} (f : β → α → Option β) (b : β) (l r : List α) :
    (l ++ r).foldlM f b = (l.foldlM f b).bind fun b' => r.foldlM f b' := by
  rw [List.foldlM_append]; rfl

theorem foldlM_nzVarint {σ} (f : σ → Field → Option σ) (m : σ) (n : Nat) (v : UInt32) (r : σ)
    (h0 : v = 0 → m = r) (h1 : f m ⟨n, .varint v.toNat⟩ = some r) : (nzVarint n v).foldlM f m = some r := by
  simp only [nzVarint]
  split
  · rename_i hv; simp [h0 hv]
  · simp [h1]

theorem foldlM_nzLen {σ} (f : σ → Field → Option σ) (m : σ) (n : Nat) (v : Bytes) (r : σ)
    (h0 : v = [] → m = r) (h1 : f m ⟨n, .len v⟩ = some r) : (nzLen n v).foldlM f m = some r := by
  simp only [nzLen]
  split
  · rename_i hv; simp [h0 hv]
  · simp [h1]

theorem foldlM_optMsg {σ} (f : σ → Field → Option σ) (m : σ) (n : Nat) (v : Option Bytes) (r : σ)
    (h0 : v = none → m = r) (h1 : ∀ b, v = some b → f m ⟨n, .len b⟩ = some r) : (optMsg n v).foldlM f m = some r := by
  cases v with
  | none => simp [optMsg, optLen, h0]
  | some b => simp [optMsg, optLen, h1 b rfl]

theorem PBChain.foldlM_messageKeys (ks : List PBMessageKey) (m : PBChain)
    (h : ∀ k ∈ ks, k.marshal.length < 2 ^ 64) :
    (ks.map fun k => (⟨4, .len k.marshal⟩ : Field)).foldlM PBChain.field m =
      some { m with messageKeys := m.messageKeys ++ ks } := by
  induction ks generalizing m with
  | nil => simp
  | cons k ks ih =>
    have hk := PBMessageKey.merge_marshal k (h k (by simp))
    simp only [List.map_cons, List.foldlM_cons]
    have : PBChain.field m ⟨4, .len k.marshal⟩ = some { m with messageKeys := m.messageKeys ++ [k] } := by
      simp [PBChain.field, hk]
    rw [this]
    have := ih { m with messageKeys := m.messageKeys ++ [k] } (fun k' hk' => h k' (by simp [hk']))
    simp [this]

theorem PBChain.merge_marshal (m : PBChain) (h : m.marshal.length < 2 ^ 64) :
    PBChain.merge {} m.marshal = some m := by
  have hok := fieldsOk_of_length (fs := nzLen 1 m.senderRatchetKey ++ nzLen 2 m.senderRatchetKeyPrivate ++
    optMsg 3 (m.chainKey.map PBChainKey.marshal) ++ m.messageKeys.map fun k => (⟨4, .len k.marshal⟩ : Field)) h (by
    intro f hf
    rcases List.mem_append.mp hf with hf | hf
    · rcases List.mem_append.mp hf with hf | hf
      · rcases List.mem_append.mp hf with hf | hf
        · exact shape_nzLen 1 (by omega) (by omega) _ f hf
        · exact shape_nzLen 2 (by omega) (by omega) _ f hf
      · exact shape_optMsg 3 (by omega) (by omega) _ f hf
    · exact shape_map 4 (by omega) (by omega) _ _ f hf)
  have hmk : ∀ k ∈ m.messageKeys, k.marshal.length < 2 ^ 64 := by
    intro k hk
    have hm : (⟨4, .len k.marshal⟩ : Field) ∈ nzLen 1 m.senderRatchetKey ++ nzLen 2 m.senderRatchetKeyPrivate ++
        optMsg 3 (m.chainKey.map PBChainKey.marshal) ++ m.messageKeys.map fun k => ⟨4, .len k.marshal⟩ :=
      List.mem_append_right _ (List.mem_map.mpr ⟨k, hk, rfl⟩)
    have := len_le_encFields hm
    rw [PBChain.marshal] at h
    omega
  have hck : ∀ c, m.chainKey = some c → c.marshal.length < 2 ^ 64 := by
    intro c hc
    have hm : (⟨3, .len c.marshal⟩ : Field) ∈ nzLen 1 m.senderRatchetKey ++ nzLen 2 m.senderRatchetKeyPrivate ++
        optMsg 3 (m.chainKey.map PBChainKey.marshal) ++ m.messageKeys.map fun k => ⟨4, .len k.marshal⟩ :=
      List.mem_append_left _ (List.mem_append_right _ (by simp [optMsg, optLen, hc]))
    have := len_le_encFields hm
    rw [PBChain.marshal] at h
    omega
  rw [PBChain.merge, PBChain.marshal, Wire.parseFields_enc _ hok, Option.bind_some]
  obtain ⟨a, b, c, d⟩ := m
  simp only [foldlM_append'] at *
  rw [foldlM_nzLen (r := { senderRatchetKey := a }) _ _ _ _ (by rintro rfl; rfl) (by simp [PBChain.field]),
    Option.bind_some,
    foldlM_nzLen (r := { senderRatchetKey := a, senderRatchetKeyPrivate := b }) _ _ _ _ (by rintro rfl; rfl) (by simp [PBChain.field]),
    Option.bind_some,
    foldlM_optMsg (r := { senderRatchetKey := a, senderRatchetKeyPrivate := b, chainKey := c }) _ _ _ _
      (by cases c <;> simp) (by
        intro bs hb
        cases c with
        | none => simp at hb
        | some c =>
          simp at hb; subst hb
          have := PBChainKey.merge_marshal c (hck c rfl)
          simp [PBChain.field, this]),
    Option.bind_some, PBChain.foldlM_messageKeys _ _ hmk]
  simp

theorem SState.foldlM_receiverChains (ks : List PBChain) (m : SState)
    (h : ∀ k ∈ ks, k.marshal.length < 2 ^ 64) :
    (ks.map fun k => (⟨7, .len k.marshal⟩ : Field)).foldlM SState.field m =
      some { m with receiverChains := m.receiverChains ++ ks } := by
  induction ks generalizing m with
  | nil => simp
  | cons k ks ih =>
    have hk := PBChain.merge_marshal k (h k (by simp))
    simp only [List.map_cons, List.foldlM_cons]
    have : SState.field m ⟨7, .len k.marshal⟩ = some { m with receiverChains := m.receiverChains ++ [k] } := by
      simp [SState.field, hk]
    rw [this]
    have := ih { m with receiverChains := m.receiverChains ++ [k] } (fun k' hk' => h k' (by simp [hk']))
    simp [this]

theorem SState.merge_marshal (m : SState) (h : m.marshal.length < 2 ^ 64) :
    SState.merge {} m.marshal = some m := by
  obtain ⟨fs, hfs⟩ : ∃ fs, fs = nzVarint 1 m.sessionVersion ++ nzLen 2 m.localIdentityPublic ++ nzLen 3 m.remoteIdentityPublic ++
    nzLen 4 m.rootKey ++ nzVarint 5 m.previousCounter ++ optMsg 6 (m.senderChain.map PBChain.marshal) ++
    (m.receiverChains.map fun c => ⟨7, .len c.marshal⟩) ++
    optMsg 9 (m.pendingPreKey.map PBPendingPreKey.marshal) ++ nzVarint 10 m.remoteRegistrationId ++
    nzVarint 11 m.localRegistrationId ++ nzLen 13 m.aliceBaseKey := ⟨_, rfl⟩
  have hm : m.marshal = encFields fs := by rw [hfs]; rfl
  have hlen : (encFields fs).length < 2 ^ 64 := by rw [← hm]; exact h
  have hok := fieldsOk_of_length (fs := fs) hlen (by
    intro f hf
    rw [hfs] at hf
    simp only [List.mem_append] at hf
    rcases hf with (((((((((hf | hf) | hf) | hf) | hf) | hf) | hf) | hf) | hf) | hf) | hf
    · exact shape_nzVarint 1 (by omega) (by omega) _ f hf
    · exact shape_nzLen 2 (by omega) (by omega) _ f hf
    · exact shape_nzLen 3 (by omega) (by omega) _ f hf
    · exact shape_nzLen 4 (by omega) (by omega) _ f hf
    · exact shape_nzVarint 5 (by omega) (by omega) _ f hf
    · exact shape_optMsg 6 (by omega) (by omega) _ f hf
    · exact shape_map 7 (by omega) (by omega) _ _ f hf
    · exact shape_optMsg 9 (by omega) (by omega) _ f hf
    · exact shape_nzVarint 10 (by omega) (by omega) _ f hf
    · exact shape_nzVarint 11 (by omega) (by omega) _ f hf
    · exact shape_nzLen 13 (by omega) (by omega) _ f hf)
  have hsc : ∀ c, m.senderChain = some c → c.marshal.length < 2 ^ 64 := by
    intro c hc
    have hmem : (⟨6, .len c.marshal⟩ : Field) ∈ fs := by
      rw [hfs]; simp only [List.mem_append]
      exact Or.inl (Or.inl (Or.inl (Or.inl (Or.inl (Or.inr (by simp [optMsg, optLen, hc]))))))
    have := len_le_encFields hmem
    omega
  have hrc : ∀ c ∈ m.receiverChains, c.marshal.length < 2 ^ 64 := by
    intro c hc
    have hmem : (⟨7, .len c.marshal⟩ : Field) ∈ fs := by
      rw [hfs]; simp only [List.mem_append]
      exact Or.inl (Or.inl (Or.inl (Or.inl (Or.inr (List.mem_map.mpr ⟨c, hc, rfl⟩)))))
    have := len_le_encFields hmem
    omega
  have hpk : ∀ c, m.pendingPreKey = some c → c.marshal.length < 2 ^ 64 := by
    intro c hc
    have hmem : (⟨9, .len c.marshal⟩ : Field) ∈ fs := by
      rw [hfs]; simp only [List.mem_append]
      exact Or.inl (Or.inl (Or.inl (Or.inr (by simp [optMsg, optLen, hc]))))
    have := len_le_encFields hmem
    omega
  rw [SState.merge, hm, Wire.parseFields_enc _ hok, Option.bind_some, hfs]
  obtain ⟨a, b, c, d, e, g, i, j, k, l, n⟩ := m
  simp only [foldlM_append'] at *
  rw [foldlM_nzVarint (r := { sessionVersion := a }) _ _ _ _ (by rintro rfl; rfl) (by simp [SState.field]), Option.bind_some,
    foldlM_nzLen (r := { sessionVersion := a, localIdentityPublic := b }) _ _ _ _ (by rintro rfl; rfl) (by simp [SState.field]), Option.bind_some,
    foldlM_nzLen (r := { sessionVersion := a, localIdentityPublic := b, remoteIdentityPublic := c }) _ _ _ _ (by rintro rfl; rfl) (by simp [SState.field]), Option.bind_some,
    foldlM_nzLen (r := { sessionVersion := a, localIdentityPublic := b, remoteIdentityPublic := c, rootKey := d }) _ _ _ _ (by rintro rfl; rfl) (by simp [SState.field]), Option.bind_some,
    foldlM_nzVarint (r := { sessionVersion := a, localIdentityPublic := b, remoteIdentityPublic := c, rootKey := d, previousCounter := e }) _ _ _ _ (by rintro rfl; rfl) (by simp [SState.field]), Option.bind_some,
    foldlM_optMsg (r := { sessionVersion := a, localIdentityPublic := b, remoteIdentityPublic := c, rootKey := d, previousCounter := e, senderChain := g }) _ _ _ _
      (by cases g <;> simp) (by
        intro bs hb
        cases g with
        | none => simp at hb
        | some g =>
          simp at hb; subst hb
          have := PBChain.merge_marshal g (hsc g rfl)
          simp [SState.field, this]), Option.bind_some,
    SState.foldlM_receiverChains _ _ hrc, Option.bind_some,
    foldlM_optMsg (r := { sessionVersion := a, localIdentityPublic := b, remoteIdentityPublic := c, rootKey := d, previousCounter := e, senderChain := g, receiverChains := i, pendingPreKey := j }) _ _ _ _
      (by cases j <;> simp) (by
        intro bs hb
        cases j with
        | none => simp at hb
        | some j =>
          simp at hb; subst hb
          have := PBPendingPreKey.merge_marshal j (hpk j rfl)
          simp [SState.field, this]), Option.bind_some,
    foldlM_nzVarint (r := { sessionVersion := a, localIdentityPublic := b, remoteIdentityPublic := c, rootKey := d, previousCounter := e, senderChain := g, receiverChains := i, pendingPreKey := j, remoteRegistrationId := k }) _ _ _ _ (by rintro rfl; rfl) (by simp [SState.field]), Option.bind_some,
    foldlM_nzVarint (r := { sessionVersion := a, localIdentityPublic := b, remoteIdentityPublic := c, rootKey := d, previousCounter := e, senderChain := g, receiverChains := i, pendingPreKey := j, remoteRegistrationId := k, localRegistrationId := l }) _ _ _ _ (by rintro rfl; rfl) (by simp [SState.field]), Option.bind_some,
    foldlM_nzLen (r := { sessionVersion := a, localIdentityPublic := b, remoteIdentityPublic := c, rootKey := d, previousCounter := e, senderChain := g, receiverChains := i, pendingPreKey := j, remoteRegistrationId := k, localRegistrationId := l, aliceBaseKey := n }) _ _ _ _ (by rintro rfl; rfl) (by simp [SState.field])]

/-- Parsing what was serialised gives the structure back. -/
theorem SState.unmarshal_marshal (m : SState) (h : m.marshal.length < 2 ^ 64) :
    SState.unmarshal m.marshal = .ok m := by
  simp [SState.unmarshal, SState.merge_marshal m h]

end Verif
