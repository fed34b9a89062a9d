import Verif.Model.Body
/-!
Model of `crates/kuadrant-filter/src/filter/descriptor_manager.rs`. The mutexes are not modelled: the
virtual machine has a single thread. Hash maps are lists with unique keys; the order of these lists
carries no meaning. Log lines are left out.
-/
namespace Verif

/-- `descriptor_manager.rs` L17-21 `DescriptorKey`. -/
structure DescKey where
  cluster : Text
  service : Text
deriving DecidableEq, Repr

/-- `descriptor_manager.rs` L56-61 `DescriptorState`. -/
inductive DescState where
  | embedded (hash : Nat)
  | missing
  | pending (token : Nat)
  | resolved (hash : Nat)
deriving DecidableEq, Repr

/-- External functions; `P` stands for `DescriptorPool`. -/
structure DescLib (P : Type) where
  /-- `hash_bytes` (L50-54), a 64-bit hash -/
  hash : Bytes → Nat
  /-- `GetServiceDescriptorsResponse::decode` (L333): for each descriptor its cluster and service name
  and its file descriptor set -/
  decode : Bytes → Option (List (DescKey × Bytes))
  /-- `FileDescriptorSet::decode` and `DescriptorPool::from_file_descriptor_set` (L346-353) -/
  build : Bytes → Option P
  /-- `get_service_by_name` (L355) -/
  hasService : P → Text → Bool
  /-- the embedded rate limit descriptors, `RATELIMIT_DESCRIPTORS` -/
  ratelimit : Bytes
  /-- the embedded authorization descriptors, `AUTH_DESCRIPTORS` -/
  auth : Bytes

/-- What the root context does, in order. -/
inductive RootEffect where
  /-- a request for these descriptors was handed to the host; the token if it was sent -/
  | requested (upstream : Text) (keys : List DescKey) (token : Option Nat)
  /-- the response for a token was handled -/
  | responded (token : Nat)

/-- `HashMap::entry(..).or_insert(..)`. -/
def orInsert {α β : Type} [DecidableEq α] (m : List (α × β)) (k : α) (v : β) : List (α × β) :=
  if (mapGet m k).isSome then m else mapInsert m k v

/-- `descriptor_manager.rs` L63-68 `DescriptorManager`. -/
structure Manager (P : Type) where
  pools : List (Nat × P) := []
  embedded : List (Text × Nat) := []
  descriptors : List (DescKey × DescState) := []
  service : Option Text := none

namespace Manager

variable {P : Type} (lib : DescLib P)

/-- `descriptor_manager.rs` L175-188 `register_embedded`. -/
def registerEmbedded (m : Manager P) (service : Text) (bytes : Bytes) (pool : P) : Manager P :=
  { m with
    pools := orInsert m.pools (lib.hash bytes) pool
    embedded := mapInsert m.embedded service (lib.hash bytes) }

/-- `descriptor_manager.rs` L397-399: the services with embedded descriptors. -/
def ratelimitService : Text := "envoy.service.ratelimit.v3.RateLimitService".toList
def kuadrantRatelimitService : Text := "kuadrant.service.ratelimit.v1.RateLimitService".toList
def authService : Text := "envoy.service.auth.v3.Authorization".toList

/-- `descriptor_manager.rs` L70-106 `default`, with `get_ratelimit_pool` and `get_auth_pool` (L401-419). -/
def new : Manager P :=
  let m : Manager P := {}
  let m := match lib.build lib.ratelimit with
    | some pool =>
      (m.registerEmbedded lib ratelimitService lib.ratelimit pool).registerEmbedded lib
        kuadrantRatelimitService lib.ratelimit pool
    | none => m
  match lib.build lib.auth with
  | some pool => m.registerEmbedded lib authService lib.auth pool
  | none => m

/-- `descriptor_manager.rs` L111-119 `set_descriptor_service`. -/
def setService (m : Manager P) (service : Text) : Manager P :=
  if m.service = some service then m else { m with service := some service }

/-- `descriptor_manager.rs` L121-135 `add_expected`. -/
def addExpected (m : Manager P) (key : DescKey) : Manager P :=
  let initial := match mapGet m.embedded key.service with
    | some hash => .embedded hash
    | none => .missing
  { m with descriptors := orInsert m.descriptors key initial }

/-- `descriptor_manager.rs` L137-143 `has_expected`. -/
def hasExpected (m : Manager P) : Bool :=
  m.descriptors.any fun e => match e.2 with
    | .embedded _ => false
    | _ => true

/-- `descriptor_manager.rs` L149-173 `get_pool`; `none` is the error `NotAvailable`. -/
def getPool (m : Manager P) (key : DescKey) : Option P :=
  match mapGet m.descriptors key with
  | some (.embedded hash) => mapGet m.pools hash
  | some (.resolved hash) => mapGet m.pools hash
  | _ => none

/-- `descriptor_manager.rs` L204-227 `insert_pool_from_bytes`. -/
def insertPool (m : Manager P) (key : DescKey) (bytes : Bytes) (pool : P) : Manager P :=
  match mapGet m.descriptors key with
  | some (.embedded _) => m
  | _ => { m with
      pools := orInsert m.pools (lib.hash bytes) pool
      descriptors := mapInsert m.descriptors key (.resolved (lib.hash bytes)) }

/-- `descriptor_manager.rs` L229-242 `get_missing`. -/
def getMissing (m : Manager P) : List DescKey :=
  m.descriptors.filterMap fun e => match e.2 with
    | .missing => some e.1
    | _ => none

/-- `descriptor_manager.rs` L244-303 `fetch_missing`. `dispatch` is the host's answer to the call. The
effects are those visible outside. -/
def fetchMissing (m : Manager P) (dispatch : Text → List DescKey → Option Nat) :
    List RootEffect × Manager P :=
  let missing := m.getMissing
  if missing.isEmpty then ([], m)
  else match m.service with
    | none => ([], m)
    | some service =>
      match dispatch service missing with
      | none => ([.requested service missing none], m)
      | some token => ([.requested service missing (some token)], { m with
          descriptors := missing.foldl (fun d k => mapInsert d k (.pending token)) m.descriptors })

/-- `descriptor_manager.rs` L305-315 `reset_pending`. -/
def resetPending (m : Manager P) (token : Nat) : Manager P :=
  { m with descriptors := m.descriptors.map fun e =>
      if e.2 = .pending token then (e.1, .missing) else e }

/-- The result for one descriptor of a response, `descriptor_manager.rs` L342-375. -/
def handleDescriptor (m : Manager P) (key : DescKey) (bytes : Bytes) : Manager P :=
  match lib.build bytes with
  | none => m
  | some pool => if lib.hasService pool key.service then m.insertPool lib key bytes pool else m

/-- `descriptor_manager.rs` L317-384 `handle_response`. The result only feeds a log line. -/
def handleResponse (m : Manager P) (token : Nat) (bytes : Bytes) : Manager P :=
  if m.descriptors.any (fun e => e.2 = .pending token) then
    match lib.decode bytes with
    | none => m
    | some ds => ds.foldl (fun m d => m.handleDescriptor lib d.1 d.2) m
  else m

end Manager

end Verif
