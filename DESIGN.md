# Formal model of dcontroller: design

This directory holds a Lean 4 model of the semantic core of `l7mp/dcontroller` (source in `/repo`,
read as text, never executed) and machine-checked theorems about the model. `properties.jsonl` lists
the properties, `MANIFEST.json` maps each of them to theorem names, `seeded/LOG.jsonl` records the
mutation experiments used to test the theorems.

## 1. Trusted base

* Lean 4.33.0's kernel. Theorems depend on at most `propext`, `Classical.choice`, `Quot.sound`
  (checked with `#print axioms`; see section 5). No own axioms, no `sorry`, no `native_decide`,
  no `bv_decide`.
* The faithfulness of the model to `/repo`: every definition cites the file and lines it models, and
  says where it simplifies.
* Modelling conventions used everywhere:
  * Go `int`/`int64` are unbounded `Int`/`Nat` (no overflow).
  * A Go map is an association list; map iteration order is the order of that list. Theorems
    quantify over all lists, so over all iteration orders; where iteration order changes between
    steps, the step relation re-permutes the list.
  * Errors are values (`Except String α` or `Option α`); a Go panic is an explicit error value where
    relevant.
  * User-supplied evaluators (select/project/join conditions) are arbitrary total deterministic functions
    `D → Except String (List D)`. `@now`/`@rnd` style non-determinism is outside this model of evaluators
    (see C11 note).
  * Logging, metrics, tracing, time, HTTP plumbing, controller-runtime, client-go internals and
    the Kubernetes API server libraries are not modelled.
  * Locks: operations on one store are atomic steps; where the code releases a lock between two
    actions (C24) the model splits the step.

## 2. Modules

| module | models |
|---|---|
| `Verif/Util/*` | list and association-list lemmas |
| `Verif/Dbsp/ZSet` | `pkg/dbsp/zset.go` |
| `Verif/Dbsp/Op` | `op_linear.go`, `op_nonlinear.go`, `op_misc.go`, `fused_op.go` |
| `Verif/Dbsp/Join` | `op_bilinear.go` |
| `Verif/Dbsp/{Declared,SmallOps}` | `OpType` of all operators; inputs, constants, sums, differences and negations of `op_misc.go` |
| `Verif/Dbsp/Heap` | the same operators and the executor on documents in memory, with the copies the code makes; `zset.go`, `DeepCopyAny` |
| `Verif/Dbsp/Graph`, `Rewrite` | `chain.go`, `executor.go`, `graph_converter.go`, `rewrite_engine.go` |
| `Verif/Dbsp/NodeIds` | the same files with the node identifiers and the node map |
| `Verif/Json/Basic`, `Key` | JSON values, `pkg/dbsp/document.go` (identity) |
| `Verif/Json/Object`, `Patch` | `pkg/object` and the accessors of `unstructured.Unstructured` it uses |
| `Verif/Pipeline/*` | `pkg/pipeline` (compilation, adaptor, Evaluate, Sync, Reconcile; `JsonOp`: `op.go` and `sortValues`) |
| `Verif/Controller/Reconcile`, `Secret` | `pkg/controller/reconcilers.go` |
| `Verif/Controller/Target`, `Upsert` | `pkg/reconciler/target.go`, `ctrlutils.go` |
| `Verif/Reconciler/Predicate`, `Source`, `OneShot`, `Periodic` | `pkg/predicate`, `pkg/reconciler/source.go`, `reconciler.go`, the work queue; `Periodic`: types of sources and targets, periods (`time.ParseDuration`), tickers |
| `Verif/Cache/Group`, `Mapper` | `pkg/api/view/v1alpha1/group_version.go`, `view_discovery.go`, `view_restmapper.go`, `restmapper.go`, `resource.go` |
| `Verif/Cache/View`, `Race` | `view_cache.go`, `view_cache_informer.go`, `delegating_view_cache.go`; atomic operations and interleavings |
| `Verif/Cache/HeapCache` | `object.go` `DeepCopy`, `uid.go`, `view_cache.go`, `view_cache_informer.go`, `util.go` on memory: what shares what |
| `Verif/Pipeline/HeapConvert` | `zset_adaptor.go` `ConvertDeltaToZSet`, `store.go`, `uid.go` `RemoveUID`, `pipeline.go` `Evaluate` up to the answer of the executor, on memory |
| `Verif/Pipeline/HeapEmit` | `zset.go` `List`, `object.go` `SetContent`, `zset_adaptor.go` `ConvertZSetToDelta` and `Reconcile`, `pipeline.go` `Evaluate` as a whole, on memory |
| `Verif/Pipeline/HeapSync` | `store.go` `List`, `graph_converter.go` `ToSnapshotGraph`, `pipeline.go` `Sync`, on memory |
| `Verif/Cache/Client` | `view_client.go`, `client.go`, `composite.go` |
| `Verif/Cache/Discovery` | `discovery.go`, the listing part of `view_discovery.go`, `NewCompositeRESTMapper` |
| `Verif/Manager/Manager` | `pkg/manager/manager.go`, `SetCache` of `client.go` |
| `Verif/Expr/*` | `pkg/expression` |
| `Verif/Auth/*` | `pkg/auth` (authorizer, RBAC, tokens, authenticator; `Command`: `kubeconfig.go` and the commands `generate-config`, `get-config` of `main.go`; `Keys`: key files, the command `generate-keys` and `checkCert`) |
| `Verif/Apiserver/Start` | the command `start` of `main.go`, `NewDefaultConfig`, sockets and handler chain of `builder.go`, `Start` of `apiserver.go` |
| `Verif/Apiserver/*` | `pkg/apiserver` (registry, dispatch, storage, table rows, OpenAPI definitions, type scheme) |
| `Verif/Visualize/Graph` | `pkg/visualize/visualize.go`, the edges of the drawing |
| `Verif/Operator/Errors` | `pkg/kubernetes/controllers/operator.go` (errors and status), as goroutines and channels |
| `Verif/Operator/Status`, `Kinds` | `pkg/controller/status_reporter.go`, `declarative.go`, `native.go`, `pkg/operator/operator.go` |
| `Verif/Operator/Loop` | the composition of the controllers of an operator over one store; the simplifications are listed at the top of the file |
| `Verif/Operator/PatchLoop`, `PatchJson` | the same with Patcher targets, whose objects belong to users: `pkg/reconciler/target.go` `patch`, `pkg/reconciler/ctrlutils.go` `Update`, `pkg/controller/reconcilers.go` |
| `Verif/Json/ViewObject` | `pkg/object/object.go` `NewViewObject`, `NewViewObjectFromNativeObject` |
| `Verif/Operator/Lifecycle`, `Pipeline` | `pkg/kubernetes/controllers/operator.go`, `pkg/api/operator/v1alpha1/pipeline_types.go` |
| `Verif/Spec/*` | small independent specifications used in theorem statements |
| `Verif/*/*Lemmas`, `Dbsp/StagesMean` | helper lemmas, no model definitions |
| `Verif/Props/*` | the property theorems, one file per area, with examples |

Code outside the repository that the model has to say something about is modelled by its documentation and marked "library" or
"environment" in the comment of the definition:

* client-go work queue and controller-runtime worker loop (`Reconciler/Source`), controller-runtime predicates (`Reconciler/Predicate`);
* the Kubernetes API server as a store with resource versions and a status subresource (`Controller/Upsert`), as a map for the targets (`Controller/Target`);
* `encoding/json` into typed structs (`Auth/Rbac`, `Auth/Token`, `Operator/Pipeline`), with exact (not case-insensitive) keys;
* `golang-jwt`: an abstract structure `Jwt` with the contract `Jwt.SoundFor`; SHA-256 and base64 are abstract functions;
* the JSONPath library `ohler55/ojg`: abstract (`Env.jget`, `Env.jset`), except for plain field paths (`Expr/Path`);
* float printing and rounding: abstract (`Env`), floats are rationals;
* `rate.Sometimes` (`Operator/Status`), by its documentation;
* `time.ParseDuration` as the loop it is, except that the nanoseconds of a fraction of a unit are abstract (floats), and `time.NewTicker`, by its documentation (`Reconciler/Periodic`).

Values have no identity in the model, except in `Dbsp/Heap`, `Cache/HeapCache`, `Pipeline/HeapConvert`, `Pipeline/HeapEmit` and `Pipeline/HeapSync`, where the engine, the view cache and the way of deltas into and out of the engine are modelled on memory and proved to be the engine (C110), the view cache (C122) and the pipelines (C123, C124, C125) on values. In Go `GetJSONPath` returns references into the document, and a map literal then sets its path keys in place. So a literal
with a key for a whole value and a path key below it, such as `{"metadata": "$.metadata", "$.metadata.name": "x"}`, writes into the document it reads. The projection of
`pkg/dbsp` copies the document first; the fused operators, the selection, the join and the gather evaluators do not. Elsewhere the values that are shared are not written: the stores copy
on every access, the conversion of a delta, the output of joins and integrators, `MergeAny` and the result list are deep copies. Such literals depend on the iteration
order anyway (C64), so theorems that use map literals ask for plain keys.

Not modelled: the main programs except for the two commands named above, `pkg/testsuite`, `internal/*`, the CRD manager of `pkg/kubernetes`, TLS and HTTP plumbing, how
OpenAPI documents are made of definitions, reading and writing kubeconfig files as YAML, logging, metrics, deep-copy aliasing of Go pointers except where a property is about it
(`Dbsp/Heap`, `Cache/HeapCache`, `Cache/Race`, `Controller/Secret`).

## 3. Plan per property

* **C01** JSON values as an inductive type; the canonical form of `document.go` as the sorted-key value and the
  key as the serialised string. Prove: canonical forms agree iff the values are equal up to map
  order; serialisation is injective. Known gap: `2` and `2.0` serialise alike.
* **C02, C03** Z-set as association list with the Go update rule; spec is the function
  `D → Int`. Representation invariant by induction on operations.
* **C04** for every evaluator: output multiplicity is the sum over inputs of multiplicity times the number of
  copies produced; linearity follows.
* **C05, C06** state machine of the incremental join; induction over the history; the 2^n-1 term expansion by
  induction on n.
* **C07** streams of Z-sets, induction on length.
* **C08** relational gather (any iteration order), invariant of I→G→D.
* **C09** equality of fused and sequential runs for all evaluators.
* **C10** the rewrite engine as a function on graphs; bound on the number of applied rules; semantics by
  a refinement relation between optimised and original chains.
* **C11** composition: relational execution of the optimised graph, accumulated output is a snapshot result.
* **C12, C13** executor step; Reset is false for the n-ary incremental join (witness), true otherwise (`_partial`).
* **C14** snapshot conversion is partial: rejected for unwind and for (optimised) gather (witness); exact characterisation.
* **C15–C17** adaptor state machine; C16 is false for repeated Added and for stale Deleted (witness), proved for
  watch-consistent histories (`_partial`).
* **C18–C21** Reconcile as a fold over a delta batch; target record refinement; end-to-end composition.
* **C22–C24** false of the code: concrete witnesses; positive partial results (single worker, no failures).
* **C25–C27** recursive functions on JSON objects; laws by induction.
* **C28, C29** record/field functions on JSON objects (hash and base64 are parameters).
* **C30–C34** evaluator of the operator fragment, parametric in sub-evaluation.
* **C35** marshal/unmarshal as functions Expr ↔ Json; round trip for the well-formed fragment, witnesses for the rest.
* **C36** simple `$.a.b.c` field paths only (the JSONPath library is not modelled).
* **C37** label selector semantics.
* **C38, C39** strings as character lists; group naming functions.
* **C40–C44** store as map; informer/watch event logs; refinement by replay.
* **C45–C47** client operations with an adversarial concurrent writer.
* **C48** boolean predicates.
* **C49–C52** decision logic.
* **C53, C60** registry state machine and dispatch.
* **C54** bounded buffer.
* **C55** operator map state machine.
* **C56, C57** REST mapper / discovery.
* **C58, C59** pipeline JSON; GVK list.
* **C61** read-modify-write of the Patcher with a foreign writer; false with a stale snapshot (witness).
* **C62** retries work on the snapshot modified in place; witness for a Secret decoded twice.
* **C63, C64** map literals: values are looked up a second time, keys may be paths (witnesses); the rest by induction on the map.
* **C65** decision logic. **C66–C68** source state machine, invariant over all steps.
* **C69** consequence of C50. **C70, C71** authorizer, dispatch and storage composed; frame conditions on the store.
* **C72** limiter and channel; **C73** construction as a fold over the sources.
* **C76–C81** the evaluators of `op.go` for expressions: select, join, project, unwind, gather, and the order of gathered values; `slices.SortFunc` is a library
  contract (`SortFunc`), `fmt.Sprintf("%s")` is spelled out for scalars.
* **C74, C75** composition of C19 with JSON objects (C28) and Updater writes (C46).
* **C82, C83** composition of C75 with C77–C79: the result of a specification on one object or tuple is a relation (`Results`), uniqueness of names is an
  invariant of the stages. That no evaluation fails is proved from what the operations do on the objects of the history only (`DefinedPipeline`, `Evaluates`):
  definedness on a domain is kept by every rewrite rule and is an invariant of the executor state.
* **C84** the same for pipelines with gathers: the specification is a relation between lists of documents (`PipeRows`), because a gather depends on the whole
  collection and on which document of a group is visited first.
* **C85** the decision table of `Reconcile` (C18) composed with the executor invariant of C19: the change set of an event is the difference of two results.
* **C86, C87** a transition system of user writes and controller steps. Invariant: for each source of each controller, the events evaluated followed by those queued are a
  watch history whose live objects are the objects in the store; the objects written plus the writes still to be sent are those of all evaluations; with C19 and C85 an
  idle controller is up to date. An evaluation and each of its writes are separate steps. Termination by the lexicographic order of the numbers of queued events and of
  writes to be sent, by rank in the acyclic graph of controllers: an evaluation removes one event and adds writes, a write adds events at later controllers only.
* **C88** composition of C19 and C85 with C25, C26: an invariant over the writes of a Patcher interleaved with changes made by others (`Patched`), for one object and one
  field; that a delete carries the object last written comes from C85.
* **C89** an operator shipped as an example, end to end: the JSON of its pipeline is parsed by the model of `UnmarshalJSON`, its expressions are evaluated symbolically on
  all objects, and C83, C85, C88 give what it does to the cluster.
* **C90** the same for the second controller of the service health example, with `@filter`, `@len`, `@string` and `@concat` evaluated on all lists of pods; C88 is first
  lifted to specifications with a join (`C88_join_partial`).
* **C91** the first controller of that example: a projection and a gather over all lists of live pods, from C84; the two JSONPath queries in it that are no field paths
  enter as a hypothesis on the JSONPath library (`ReadsQueries`).
* **C92** both controllers: C91 and C90 composed, where the history of the second shows the HealthViews that are in the cluster (`ViewsSeen`).
* **C93** the service controller of `examples/endpointslice-controller`: the selection on the annotation, the projection and the unwind of the ports, end to end, through the general form of C84 (`C84_never_fails_versions_partial`), which asks for names only of what the operations make of the objects in the history.
* **C94** the endpoint slice controller of the same example: the join of ServiceViews and EndpointSlices, two projections, two unwinds with a selection between them, and the name from the hash, end to end. `Pipeline/FamilyLemmas.lean` describes the documents between the operations as a family over labels (which objects, which endpoint, which address). The view of an address that is in two slices is lost (`C94_duplicate`).
* **C98** both controllers of that example: C93 and C94 composed (`SeenAll`), stated in terms of Services, ports, EndpointSlices and addresses only.
* **C99** one-shot sources: the view cache invariant and C43 give the log of the handler; counting the events about the trigger over any run of others.
* **C100** table rows: the insertion loop keeps the conditions grouped by rank, the specification is a concatenation of filters.
* **C101** the drawing: membership of edges against the sources and targets of the controllers.
* **C102** drift: the effect of the writes of a `Sync` on a target of any content (`sync_effect`), from the invariant of C20.
* **C103** discovery: C57 and the listing loops, over all histories of registrations and all answers of the native client.
* **C104** sharing: a decision table for the manager, then induction over the writes of any number of operators.
* **C105** command line: lists by induction over the text against a specification of items; the rights granted by composition with C52.
* **C107** OpenAPI definitions: names are injective for kinds without dots, by their last separator; invariants over interleavings of the locked sections.
* **C108** type scheme: adding types is a fold; what is known after any history, by induction, decides when the next registration panics.
* **C109** declared types: a coupling of the states of three runs (two streams and their sum), kept by every step; accumulation is its special case with the stream so far.
* **C110** sharing: memory is a list of cells; each operator simulates the operator on values, with regions that say which cells it reads, keeps and returns. Separation of what the nodes keep is the invariant of the executor. What the evaluators may write is a contract for each operator.
* **C106** errors on their way: a transition system of the goroutines; invariants by induction over runs, and a measure for termination.
* **C95–C97** literals, conversions and utility operators as documented in `doc/reference-expression.md`: induction over JSON values for the literals (the values that
  stand for themselves are described on the JSON value alone, and the values that are rejected exactly), a specification of decimal numerals for `@int`.
* **C111** sources: case analysis for the types; durations by induction on the parts (value) and on the iterations of the parser (form); ticks by an invariant of all runs: requests added plus the tick waiting never exceed the periods that are over, and equal them while the goroutine keeps up.
* **C112** the endpoint slice operator with gather, the other variant of that example: `Pipeline/GatherFamilyLemmas.lean` adds gathers to the families of C94 (the groups are the labels with the same key, the gathered list is a permutation of their values). Both controllers are proved alone and composed. With gather no hypothesis on duplicate addresses or hashes is left, and the example beside the theorem is the history of `C94_duplicate`: the address stays.
* **C113** node identifiers: a representation relation between the graph with identifiers and the graph that holds its operators, kept by every call; each walk of a rewrite rule over the chain is an induction that says which identifiers it keeps, which nodes it changes and which it removes.
* **C114** results of single nodes: the same relation, with the walk stopped at the node.
* **C115** keys: the files after the command computed for all file systems, then composition with C105 and C116 from end to end; encodings, certificates and keys are abstract, the library contract is `X509.SoundFor`.
* **C116** start: case analysis over flags and files, with exact conditions; `tls.X509KeyPair` is modelled as documented (blocks with other labels are skipped).
* **C117** life cycle: an invariant over all histories; the libraries are taken to close their sockets when an instance ends.
* **C118** closed loop with patches: an invariant of all runs that relates store, queues, snapshots and unsent patches, and a measure (events that can cause patches, patches unsent, events of patches) that decreases in lexicographic order; the conditions on pipelines are proved for the configmap-deployment operator from C89. `C118_write` ties the patches of the model to those of `Controller/Target`.
* **C119** view objects of native objects: exact description of every field of the result, for all native objects; lookups after the writes of `SetContent`.
* **C120** operators that annotate what refers to another object (`Spec/Annotator`: the two files of `test/`, read as JSON): the conditions of C118 are proved for both pipelines at once (`RefPipe`), with C83 and C85 for the results of the join; the negation follows one run with an invariant of three states that every further step of the operator leads among.
* **C121** operators that annotate the Pods they watch (`Spec/PodAnnotator`: the operators of `README.md` and `doc/getting-started.md`, read as JSON): as C120, for one source and a projection (`OwnPipe`), with C82 for the results.
* **C122** sharing in the view cache (`Cache/HeapCache`): the cache on memory simulates the cache on values. Invariant: what the cache holds (reachable from what is stored or about to be handed to handlers) and what the rest of the program knows (reachable from what it made or was given) are apart, and known cells exist. The rest of the program may at any time allocate a cell, or overwrite one it knows, with references to what it knows (`Other`). A copy is `Fresh`: new cells only, its fields apart from each other, so the writes of `SetGroupVersionKind` and `SetUID` stay within it.
* **C123** sharing between pipelines and their callers (`Pipeline/HeapConvert`): `convertM` simulates `convertDelta`, and `feedM` (conversion, then the graph of C110) simulates `feed` on values. Invariant (`PipeIs`): the source cache in memory stands for the one on values, the graph in memory for the one on values, and the two share no cell. Everything a call adds to what the pipeline holds is new. Between calls, all cells the pipeline does not hold may change at will. `evaluate_feed`: on values, `Pipe.evaluate` is `feed`, then `emits`.
* **C124** sharing between pipelines and their consumers (`Pipeline/HeapEmit`): `emitM` simulates `emits`, and `evaluateM` simulates `Pipe.evaluate`. Invariant (`WholeIs`): that of C123, and the target cache in memory stands for the one on values. The emitted objects lie in the cells made by `ConvertZSetToDelta`, the copies in the target cache in cells made later (`Acted`); `Reconcile` emits each object it was given at most once (`reconcileM_objs`). Orders of map iteration are permutations that do not look at the entries (`Shuffle`), so that the same order can be used in memory and on values.
* **C125** sharing of `Sync` (`Pipeline/HeapSync`): `diffM` (inputs from the source cache, snapshot graph, minus the target cache) simulates `diffs`, and `syncM` simulates `Pipe.syncAll`. Invariant (`FullIs`): that of C124, and the snapshot graph in memory, if there is one, stands for the one on values. A snapshot graph made from the incremental one keeps nothing (`toSnapshot_gives`): operators with a state are either converted or refused. The emitted objects are newer than all that the snapshot graph, the source cache and the incremental graph hold.

## 4. Divergences found

Statements of `properties.jsonl` that are false of the code as it stands. Each has a theorem proving the negation with a concrete run (named in
`MANIFEST.json` in the claim of the property), and the `_partial` theorem keeps what holds.

Pipelines:

* C01: integral floats beyond 2^53 share the JSON text, hence the identity, of another integer.
* C12: two sources of one kind make every evaluation fail (inputs are named by kind only).
* C13: `Reset` does not reach the state of the n-ary incremental join.
* C14: Sync is impossible for pipelines with unwind, and with gather once the optimizer has incrementalised it.
* C16: a repeated Added counts twice; a Deleted with another version than the recorded one leaves a ghost.
* C19: two live objects that yield the same target document: deleting one deletes the target.
* C22: an evaluator error inside the executor leaves the operators' state half updated: the stream stays wrong until a Sync.
* C87: a controller that writes the kind it reads and changes what it writes never comes to rest.
* C88: a Patcher merges the new version of a result into the object but never removes what only the earlier version had; when the result is gone, only the fields of the
  last version are removed.
* C89: if two ConfigDeployment objects link the same ConfigMap and Deployment and one of them goes, the shipped operator removes the annotation although the link is still
  there (an instance of C19).
* C91: the shipped pod health controller groups by `name--namespace`: applications `x--y` in `z` and `x` in `y--z` share a HealthView; and while one opted-in pod has no
  label `app`, every evaluation fails, also for pods in other namespaces, since the gather recomputes all groups. The README of the example shows a join on
  `$.HealthView.spec.serviceName` that the file does not have.
* C94: an address in two EndpointSlices of a Service loses its EndpointView when one of them loses the address (an instance of C19; Kubernetes allows such duplicates).
  Endpoints without the `ready` condition are dropped, although Kubernetes asks to take them as ready.
* C95: `null` as an expression is `false`, so `{"@isnil": null}` is false and `{"@definedOr": [null, e]}` never gives `e`; the empty string is rejected wherever it
  stands, so no projection can set a field to it; `[[1, 2], [3]]` evaluates to `[1, 2]`.
* C96: `@string` of a boolean is an error and of a float the text `%!d(float64=…)` (also inside `@concat`); `@string` of a string that starts with a dollar
  follows the path; `@int` of a float is an error; `@bool` converts nothing.
* C97: `@rnd` with an empty range, or bounds more than 2^63-1 apart, panics.
* C102: the comment at `reconcilers.go:94` says that the tick compares with the actual target state, but `Sync` compares with the pipeline's own record. An object whose
  document already has the apiVersion and kind of the target is never written again while the document stays the same, so what others make of it (including its removal)
  stays for ever. Other documents differ from the record only because the record has the type of the target added, and are therefore written at every tick. Lost deletes (C23) are never repaired.
* C23, C24: a failed write is retried from a record that already contains it, so it is lost; two workers can write one object in the wrong order.
* C76, C79: an unwind of a number or of a string that is no path is accepted and fails on every document; the check for a name in unwind never fails, nameless
  documents get the name `%!s(<nil>)-0`.
* C76, C80, C81: a gather of an expression that is no path is accepted and fails for every group; the document that carries the list is the first one in
  Go's map order; values with both integers and floats are sorted by a relation that is no order (9 < 10 < 10.5 < 9).
* C114: `GetNodeResult` advances the operators it looks at and takes its inputs by node identifiers, which `Process` does not.
* C115: `runGenerateKeys` (`main.go:152`) calls `WriteCertAndKey` with the two files swapped; the contents end up right, but the private key is written with mode 0644 and the certificate with 0600.
* C116: `runStartServer` (`main.go:262`) ignores `--addr` and `--port` and always listens on 0.0.0.0:8443, so `--http` and `--disable-authentication` give unrestricted access to everyone who can reach the machine although the default address is localhost; `--tls-cert-file` is ignored with `--disable-authentication`; `checkCert` panics if the first block of the certificate file is not a certificate; `LoadPrivateKey` reads only PKCS #1 keys, `start` also others.
* C117: `Start` looks at `running` and sets it in two critical sections; an instance that ends closes the sockets opened by `NewAPIServer`, and a later `Start` neither opens them again nor fails the check.
* C08: with negative multiplicities, gather depends on Go's map iteration order.

Objects and targets:

* C25, C26: patches cannot remove nulls inside maps the original lacks; deleting with a Patcher leaves empty maps and null lists.
* C61, C62: stale snapshots undo the changes of others; Secrets are decoded again on every retry and can be written back decoded.
* C118: a patch starts from the snapshot of the request (`target.go:190-207`) and `Update` writes it over whatever is there (`ctrlutils.go:96-144`), so a controller whose pipeline uses a field of the object it patches undoes a change of that field made between evaluation and patch; the events of both versions then follow each other through the loop for ever (`test/deployment_configmap_handler.yaml` and `test/endpointslice_annotator.yaml` are of this kind).
* C119: `NewViewObject` of an operator name with a slash makes an `apiVersion` with two slashes, which does not parse, so that the object has no kind (`C119_slash`); `_partial` needs an operator name without slash.
* C120: `test/endpointslice_annotator.yaml`: if a user changes the label of an EndpointSlice between an evaluation and its patch, the operator restores the old label, and then switches between both versions for ever (`C120_endless`); `_partial` needs references that do not change.
* C121: `README.md`: if a user changes the number of containers of a Pod between an evaluation and its patch, the operator restores the old containers, and then switches between both versions for ever (`C121_endless`), although the README promises an updated annotation (the API server of Kubernetes refuses such changes, which prevents it); a Pod without the field gets the annotation 1 (`C121_no_containers`).
* C122: `view_cache_informer.go:181` hands the old version in updates to all handlers as it is: what one of them (or the caller of `Update`) writes to it, the others see. `GetStore`, `GetIndexer` (`:193-200`) give access to the stored objects themselves. `List` copies each object twice (`view_cache.go:502`, `util.go:34`). None of the handlers in the code writes to the old version, nothing calls `GetStore` or `GetIndexer`.
* C45: status lost on create; unseen objects overwritten; writes without change; views have no version check.

Expressions:

* C31: `@none` never returns true; `@map` with one argument panics. C32: comparisons of mixed numbers and lists are inconsistent.
* C34: integer overflow wraps; literal lists that start with a list are flattened.
* C35: `@any` is lost when an expression is written and read back; so are `@list`/`@dict` with an argument and integral floats.
* C63, C64: strings in objects that start with `$` are evaluated; map literals with path keys depend on the iteration order.

Views, caches, clients:

* C38, C56, C57: dotted operator names and groups are not recovered; the view REST mapper rejects exactly the view groups; a version is listed once per
  view; kinds that end in List cannot be registered.
* C39: watches on native kinds fail, subresource calls are routed by the wrong object.
* C40–C43: slashes in names collide; handlers and watchers can miss or repeat events when writes overlap, the channel is full or objects leave the selection.
* C44, C71: Create overwrites; Update and Patch do not find objects of mapped groups; patches can rename; a patch of a subresource is not confined to it.
* C65: a view of another operator given with another version is taken as given.

Sources, API server, operators:

* C99: two one-shot sources of one kind: creating the second trigger triggers the first controller again.
* C100: the labels cell depends on the map order; with more than three labels even which ones are shown.
* C101: the drawing leaves out all writers of a view but the last, readers of views that no controller of the operator writes, and connections between controllers that
  name the same view with and without its group.
* C103: `WithLegacy` makes a client without views; when native discovery reports an error beside its results (some aggregated API is down) the composite client drops all
  results, and a REST mapper made then maps no native kind. Outside the model: nothing in the code registers views with the discovery client.
* C104: a headless operator cannot be given a composite cache; with a configuration and a bare view cache every write of a view dereferences nil.
* C105: on the command line a list of namespaces without items (`,`) grants all namespaces, names without rules grant everything, names without items remove the names
  of the last rule; `get-config` shows tokens as valid that the server refuses, and panics for some it accepts.
* C106: an older status can be written after a newer one and stays, since a conflict is answered by writing the status taken before to the newer object; the status of a replaced
  operator can be written last; a failed write is not repeated; at shutdown errors are sent on a closed channel, which panics; the controllers of a deleted operator can wait for
  ever. Simplified: a controller that waits pushes nothing, not even to its own list; senders that wait are served in order. Outside the model: `Start` starts the
  same manager twice (`operator.go:326-332,368`), and the second call fails at once.
* C107: definitions generated before a registration can be stored after it; they are served until the next registration or unregistration. The caches are written under a read
  lock, which the race detector would report; writes are atomic in the model. Kinds with dots in their names can share the name of a definition.
* C108: a kind cannot be registered once the list of another one had its name, even long ago, nor one named like a kind the library adds to every group (`ListOptions`);
  the attempt panics.
* C109: `FusedOp` declares itself linear whatever it fuses; the rewriter then does not lift a distinct or gather in it. The pipeline never fuses such operators.
* C110: the engine keeps the documents of its inputs (integrator, join), fused operators and selections give evaluators the document itself, unwound documents share the elements with the input (the copy of `op_linear.go:147` copies nothing). None of it shows as long as inputs are not written after the call and evaluators of those operators do not write; the pipeline passes copies.
* C111: a source of an unknown type watches, a period that is no duration (`30`, `1d`, a number) is silently taken as five minutes, a target of an unknown type is accepted and fails every write. Ticks are dropped while the goroutine does not keep up.
* C47, C66, C67: retries of Secrets; objects that leave a label filter stay for ever; retries come after newer events with old content.
* C50, C51, C69: no rules means all rights, so a first rule removes rights; prefix and suffix of a wildcard may overlap; collection verbs ignore names.
* C53: a group registered again with fewer kinds keeps serving the old ones; kinds equal up to case share one resource.
* C54, C72: the error stack has no lock; the rate limiter drops errors, even critical ones.
* C55, C59, C73: `AddOperator` under a used name leaks; reconciliation during `Start` panics; a recreated operator object can be missed; more than 64 rejected
  controllers block the operator controller; controllers rejected late keep watching with a nil pipeline; sources of controllers without a resolvable target are
  not exposed.

Seen while reading, outside the model: the request log contains bearer tokens; the
authorizer ignores the subresource; `CompositeCache.WaitForCacheSync` and `CompositeClient.Status` dereference nil without a native back end; `Start`
of the operator controller starts the CRD manager twice; the views of a deleted operator stay in the shared cache.

## 5. Axioms

`#print axioms` of all theorems named in `MANIFEST.json` gives subsets of `{propext, Classical.choice, Quot.sound}`, Lean's standard axioms. They enter through
core library lemmas, `simp`, `omega`, `grind` and `by_cases` on propositions. No theorem uses `Lean.ofReduceBool` or `sorryAx`; `decide +kernel` is used in
examples and witnesses only and is checked by the kernel itself.
