import Verif.Model.Blueprint
/-!
Model of `crates/kuadrant-filter/src/kuadrant/pipeline/factory.rs`.
-/
namespace Verif

/-- `str::to_ascii_lowercase`. -/
def asciiLower (t : Text) : Text := t.map fun c => if 'A' ≤ c ∧ c ≤ 'Z' then Char.ofNat (c.toNat + 32) else c

/-- `factory.rs` L234-243 `reverse_subdomain`. -/
def reverseSubdomain (subdomain : Text) : Text :=
  match subdomain ++ ['.'] with
  | '*' :: rest => rest.reverse
  | s => ('$' :: s).reverse

/-- The part before the first colon (`factory.rs` L203). -/
def stripPort (host : Text) : Text := host.takeWhile (· ≠ ':')

/-- `factory.rs` L21-25 `PipelineFactory`. The trie is a list of keys with their blueprints. -/
structure Factory where
  index : List (Text × List Blueprint) := []
  requestData : List Expr := []
  fallback : Option Blueprint := none

/-- `Trie::map_with_default` (`factory.rs` L122-126). -/
def indexInsert (index : List (Text × List Blueprint)) (key : Text) (b : Blueprint) :
    List (Text × List Blueprint) :=
  if index.any (fun e => e.1 = key) then
    index.map fun e => if e.1 = key then (e.1, e.2 ++ [b]) else e
  else index ++ [(key, [b])]

/-- Longest key of the index that is a prefix of `key` (`Trie::get_ancestor_value`). -/
def ancestor {α : Type} (index : List (Text × α)) (key : Text) : Option (Text × α) :=
  index.foldl (init := none) fun best e =>
    if startsWith key e.1 then
      match best with
      | none => some e
      | some b => if b.1.length < e.1.length then some e else some b
    else best

/-- `factory.rs` L25-31 `BuildError` without its messages. -/
inductive Build (H : Type) where
  | pipeline (p : Pipe H)
  | noMatch (c : Ctx H)
  | error (c : Ctx H)
  | panic

section
variable {H : Type} (o : Oracle H)

/-- The loop of `data/cel.rs` L604-617. -/
def testAllLoop (c : Ctx H) : List Expr → Ans Bool × Ctx H
  | [] => (.available true, c)
  | p :: ps =>
    match testPred o c [] p with
    | (.available true, c) => testAllLoop c ps
    | (.available false, c) => (.available false, c)
    | (.pending, c) => (.pending, c)
    | (.err, c) => (.err, c)

/-- `data/cel.rs` L585-619 `PredicateVec::apply`. -/
def testAll (c : Ctx H) (ps : List Expr) : Ans Bool × Ctx H :=
  if ps.isEmpty then (.available true, c) else testAllLoop o (c.withHost (o.ensure c ps)) ps

/-- `factory.rs` L200-212 `get_hostname`; `none` is an error. -/
def getHostname (c : Ctx H) : Option Text × Ctx H :=
  match o.hostname c with
  | (.available (some host), h) => (some (asciiLower (stripPort host)), c.withHost h)
  | (_, h) => (none, c.withHost h)

/-- Result of choosing a blueprint. -/
inductive Choice where
  | found (b : Blueprint)
  | none
  | error

/-- The loop of `factory.rs` L186-194; `none` means that no candidate matched. -/
def firstMatch (c : Ctx H) : List Blueprint → Choice × Ctx H
  | [] => (.none, c)
  | b :: bs =>
    match testAll o c b.routePredicates with
    | (.available true, c) => (.found b, c)
    | (.available false, c) => firstMatch c bs
    | (.pending, c) => (.error, c)
    | (.err, c) => (.error, c)

/-- `factory.rs` L174-198 `select_blueprint`. -/
def Factory.select (f : Factory) (c : Ctx H) : Choice × Ctx H :=
  match getHostname o c with
  | (none, c) => (.error, c)
  | (some hostname, c) =>
    match ancestor f.index (reverseSubdomain hostname) with
    | none => (.none, c)
    | some (_, candidates) =>
      match firstMatch o c candidates with
      | (.none, c) => match f.fallback with
        | some b => (.found b, c)
        | none => (.none, c)
      | r => r

/-- `factory.rs` L144-172 `build`. Names only feed spans. Reading the trace context (L160) reads the
request headers. -/
def Factory.build (f : Factory) (c : Ctx H) : Build H :=
  match f.select o c with
  | (.error, c) => .error c
  | (.none, c) => .noMatch c
  | (.found b, c) =>
    let c := c.withHost (o.getHeaders c .request).2
    match b.toTasks o c f.requestData with
    | none => .panic
    | some (tasks, teardown, c) =>
      if tasks.isEmpty then .noMatch c
      else .pipeline { ctx := c, queue := tasks, teardown }

end

/-- `factory.rs` L245-261 `domain_and_field_name`. `is_alphabetic` is a parameter: Unicode tables are
not modelled. -/
def domainAndField (alphabetic : Char → Bool) (name : Text) : Text × Text :=
  -- text before the last alphabetic character; empty if there is none
  let hay := ((name.reverse.dropWhile (fun c => !alphabetic c)).drop 1).reverse
  -- text before the last dot of `hay`
  let pre := ((hay.reverse.dropWhile (· ≠ '.')).drop 1).reverse
  if hay.contains '.' then
    if pre.isEmpty || pre.length + 1 = name.length then ([], name)
    else (pre, name.drop (pre.length + 1))
  else ([], name)

/-- `configuration.rs` L210-219, the parts `factory.rs` uses. `requestData` in the order of the sorted
vector (L90). -/
structure PluginConfig where
  services : Text → Option SvcInst
  tracingService : Option Text := none
  headerIdentifier : Option Text := none
  requestData : List (Text × Text) := []
  actionSets : List ActionSet := []

/-- The developer-mode action, `factory.rs` L94-111. -/
def devModeAction (cfg : PluginConfig) : Option Action :=
  cfg.headerIdentifier.map fun header =>
    let service := ((cfg.tracingService.bind cfg.services)).getD (.tracing none)
    .grpc { id := "kuadrant.devMode".toList, pred := truePred, guard := true } service header
      truePred []

/-- The loop of `factory.rs` L113-128. -/
def indexLoop (parse : Text → Option Expr) (cfg : PluginConfig)
    (index : List (Text × List Blueprint)) : List ActionSet → Option (List (Text × List Blueprint))
  | [] => some index
  | s :: ss =>
    match Blueprint.compile parse cfg.services s with
    | none => none
    | some b =>
      let b := { b with actions := b.actions ++ (devModeAction cfg).toList }
      let index := s.hostnames.foldl
        (fun index h => indexInsert index (reverseSubdomain (asciiLower h)) b) index
      indexLoop parse cfg index ss

/-- `factory.rs` L53-142 `try_from`, after the creation of the services. Request data that do not parse
are dropped (L84-89). -/
def Factory.tryFrom (parse : Text → Option Expr) (cfg : PluginConfig) : Option Factory :=
  match indexLoop parse cfg [] cfg.actionSets with
  | none => none
  | some index => some {
      index
      requestData := cfg.requestData.filterMap fun e => parse e.2
      fallback := (devModeAction cfg).map fun a =>
        { name := "kuadrant.devMode".toList, routePredicates := [], actions := [a] } }

end Verif
