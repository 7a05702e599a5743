{"id": "C01", "title": "Document identity is JSON equality", "statement": "Two documents are counted as the same element of a Z-set exactly when they are equal as JSON values: the order in which map fields were inserted does not matter, and no two documents that differ in any field, list element, string or number share an identity.", "quantifier": "all pairs of JSON documents of any depth and width", "why_tests_cant": "an identity collision needs one specific pair among infinitely many documents; tests compare a handful of pairs", "anchors": ["pkg/dbsp/document.go:computeJSONKey", "pkg/dbsp/document.go:toCanonicalForm", "pkg/dbsp/document.go:DeepEqual", "pkg/dbsp/zset.go:GetMultiplicity"]}
{"id": "C02", "title": "Z-sets are an abelian group with a canonical representation", "statement": "Adding and subtracting Z-sets adds and subtracts multiplicities document by document; no stored entry ever has multiplicity zero, so a Z-set is empty exactly when every document has multiplicity zero; addition is associative and commutative and subtraction undoes addition.", "quantifier": "all Z-sets reachable by any sequence of add/subtract operations and all documents", "why_tests_cant": "the laws range over all Z-sets and all operation sequences", "anchors": ["pkg/dbsp/zset.go:AddDocumentMutate", "pkg/dbsp/zset.go:Add", "pkg/dbsp/zset.go:Subtract", "pkg/dbsp/zset.go:IsZero", "pkg/dbsp/zset.go:GetMultiplicity"]}
{"id": "C03", "title": "Set views of a Z-set", "statement": "Distinct keeps exactly the documents with positive multiplicity, each once; Unique keeps every document with the sign of its multiplicity; Size, TotalSize, UniqueCount, Contains, GetDocuments and List report exactly the positive/absolute multiplicities; Distinct is idempotent.", "quantifier": "all Z-sets, including ones with negative multiplicities", "why_tests_cant": "negative and cancelled multiplicities occur only in particular histories", "anchors": ["pkg/dbsp/zset.go:Distinct", "pkg/dbsp/zset.go:Unique", "pkg/dbsp/zset.go:Size", "pkg/dbsp/zset.go:TotalSize", "pkg/dbsp/zset.go:UniqueCount", "pkg/dbsp/zset.go:GetDocuments", "pkg/dbsp/zset.go:List"]}
{"id": "C04", "title": "Select, project and unwind are linear", "statement": "Running a select, project or unwind stage on a sum of changes gives the sum of running it on each change: processing only the change is enough to keep the stage's result correct.", "quantifier": "all evaluators, all pairs of Z-sets, all multiplicities", "why_tests_cant": "tests fix one evaluator and a few small inputs", "anchors": ["pkg/dbsp/op_linear.go:ProjectionOp.Process", "pkg/dbsp/op_linear.go:SelectionOp.Process", "pkg/dbsp/op_linear.go:UnwindOp.Process"]}
{"id": "C05", "title": "Incremental n-ary join equals recomputed join", "statement": "After any sequence of changes to any of the n joined inputs, the sum of the changes emitted by the incremental join equals the join of the complete current inputs, and if every step succeeded the full join succeeds too.", "quantifier": "all n, all join conditions, all histories of input changes of any length", "why_tests_cant": "the expansion has 2^n-1 terms per step and the history is unbounded", "anchors": ["pkg/dbsp/op_bilinear.go:IncrementalJoinOp.Process", "pkg/dbsp/op_bilinear.go:computeTerm", "pkg/dbsp/op_bilinear.go:cartesianJoin", "pkg/dbsp/op_bilinear.go:JoinOp.Process"]}
{"id": "C06", "title": "Incremental binary join equals recomputed join", "statement": "After any sequence of left/right changes the sum of outputs of the incremental two-way join equals the snapshot join of the accumulated left and right inputs.", "quantifier": "all join conditions and all histories", "why_tests_cant": "unbounded histories with interleaved additions and deletions on both sides", "anchors": ["pkg/dbsp/op_bilinear.go:IncrementalJoinOp.Process.Process", "pkg/dbsp/op_bilinear.go:BinaryJoinOp.Process"]}
{"id": "C07", "title": "Integration and differentiation are inverse", "statement": "Differentiating an integrated stream returns the original changes step by step, integrating a differentiated stream returns the original snapshots, and a delay emits exactly the previous step's input (empty at first).", "quantifier": "all streams of Z-sets of any length", "why_tests_cant": "streams are unbounded", "anchors": ["pkg/dbsp/op_misc.go:IntegratorOp.Process", "pkg/dbsp/op_misc.go:DifferentiatorOp.Process", "pkg/dbsp/op_misc.go:DelayOp.Process"]}
{"id": "C08", "title": "Lifted gather equals recomputed gather", "statement": "With @gather in a pipeline, after any history the accumulated output equals a gather of the complete current input: one document per group key, whose collected list is exactly the multiset of values of the live documents of that group.", "quantifier": "all histories, all key/value extractors, all map iteration orders", "why_tests_cant": "depends on map iteration order and on arbitrary add/remove histories", "anchors": ["pkg/dbsp/op_nonlinear.go:GatherOp.Process", "pkg/dbsp/op_nonlinear.go:removeFirstMatch", "pkg/dbsp/rewrite_engine.go:NonLinearLiftingRule"]}
{"id": "C09", "title": "Operator fusion preserves results", "statement": "Replacing a select followed by projections, several projections, or a projection followed by a select with the fused operator never changes a successful result.", "quantifier": "all evaluators, all inputs, chains of any length", "why_tests_cant": "ranges over all evaluators and chain lengths", "anchors": ["pkg/dbsp/fused_op.go:ProjectThenSelectOp.Process", "pkg/dbsp/fused_op.go:SelectThenProjectionsOp.Process", "pkg/dbsp/fused_op.go:FusedOp.Process", "pkg/dbsp/rewrite_engine.go:LinearOperatorFusionRule"]}
{"id": "C10", "title": "The optimizer terminates and preserves meaning", "statement": "Building a pipeline never fails because of the optimizer, for any number of stages, and the optimized pipeline produces the same accumulated output as the pipeline as written.", "quantifier": "all pipelines (any join, any number and order of select/project/unwind/gather stages), all input histories", "why_tests_cant": "pipelines have unbounded length; the engine has a hard limit of 20 iterations", "anchors": ["pkg/dbsp/rewrite_engine.go:Optimize", "pkg/dbsp/rewrite_engine.go:IntegrationDifferentiationEliminationRule", "pkg/dbsp/rewrite_engine.go:DistinctOptimizationRule", "pkg/dbsp/chain.go:ReplaceInChain"]}
{"id": "C11", "title": "Incremental pipeline execution equals recomputation", "statement": "For every pipeline, after any sequence of successfully processed input changes, the sum of all emitted output changes equals the result of running the pipeline from scratch on the complete current inputs.", "quantifier": "all pipelines, all histories, all map iteration orders", "why_tests_cant": "the central DBSP claim; quantifies over programs and unbounded histories", "anchors": ["pkg/dbsp/executor.go:Process", "pkg/dbsp/chain.go:ChainGraph", "pkg/pipeline/pipeline.go:New"]}
{"id": "C12", "title": "Executor input checking", "statement": "Feeding the executor a wrong number of inputs or omitting a declared input is reported as an error and leaves every stage's state untouched; feeding exactly the declared inputs never fails for that reason.", "quantifier": "all graphs and all input maps", "why_tests_cant": "tests check one missing input", "anchors": ["pkg/dbsp/executor.go:Process", "pkg/dbsp/chain.go:Validate", "pkg/dbsp/chain.go:AddInput"]}
{"id": "C13", "title": "Reset restores the initial state", "statement": "After Reset, the executor behaves as a freshly created one.", "quantifier": "all graphs, all histories before the reset and after it", "why_tests_cant": "needs all histories; a stage whose state is forgotten shows only later", "anchors": ["pkg/dbsp/executor.go:Reset", "pkg/dbsp/executor.go:resetOperator", "pkg/dbsp/op_bilinear.go:IncrementalJoinOp"]}
{"id": "C14", "title": "Every pipeline has a snapshot form", "statement": "State-of-the-world reconciliation can be started for every pipeline that can be created, and computes the same result as the pipeline as written.", "quantifier": "all pipelines", "why_tests_cant": "only a case analysis over all stage combinations shows which pipelines are rejected", "anchors": ["pkg/dbsp/graph_converter.go:ToSnapshotGraph", "pkg/dbsp/graph_converter.go:convertToSnapshotOperator", "pkg/pipeline/pipeline.go:Sync"]}
{"id": "C15", "title": "Source bookkeeping tracks the live objects", "statement": "After any sequence of add/update/delete events the pipeline's record of a source holds exactly the latest version of each object that was added and not deleted.", "quantifier": "all event histories, any number of objects and kinds", "why_tests_cant": "unbounded histories over unboundedly many objects", "anchors": ["pkg/pipeline/zset_adaptor.go:ConvertDeltaToZSet", "pkg/cache/store.go"]}
{"id": "C16", "title": "Accumulated input changes equal the live objects", "statement": "The sum of the change sets derived from an event history equals the set of live objects, each with multiplicity one.", "quantifier": "all event histories as delivered by a watch (added, updated, deleted), any number of objects", "why_tests_cant": "stale deletes and repeated adds occur only in particular event orders", "anchors": ["pkg/pipeline/zset_adaptor.go:ConvertDeltaToZSet"]}
{"id": "C17", "title": "No-op updates are suppressed", "statement": "An update event whose object equals the recorded one produces no output changes and changes no state.", "quantifier": "all pipelines, all states, all objects", "why_tests_cant": "ranges over all states and pipelines", "anchors": ["pkg/pipeline/zset_adaptor.go:ConvertDeltaToZSet", "pkg/pipeline/pipeline.go:Evaluate"]}
{"id": "C18", "title": "Reconciled output is a well-formed write batch", "statement": "Every evaluation emits at most one write per target object, all deletes precede all upserts, a delete is emitted only for an object the pipeline has previously upserted and not deleted since, and the pipeline's record of the target equals the effect of all writes emitted so far.", "quantifier": "all delta batches in any order, all prior target records", "why_tests_cant": "quantifies over batch orders and prior states", "anchors": ["pkg/pipeline/zset_adaptor.go:Reconcile", "pkg/pipeline/zset_adaptor.go:ConvertZSetToDelta"]}
{"id": "C19", "title": "End-to-end view maintenance", "statement": "Applying the writes emitted for any event history to an initially empty target leaves exactly the objects the pipeline computes from the live sources, provided the pipeline output has at most one document per name.", "quantifier": "all pipelines, all well-formed event histories", "why_tests_cant": "composition of all stages over unbounded histories", "anchors": ["pkg/pipeline/pipeline.go:Evaluate", "pkg/pipeline/zset_adaptor.go:Reconcile"]}
{"id": "C20", "title": "Sync brings the target to the required state", "statement": "After a successful Sync the target holds exactly the objects the pipeline computes from the recorded sources, whatever the target record was before; a second Sync changes nothing.", "quantifier": "all source and target records, all pipelines that have a snapshot form", "why_tests_cant": "ranges over all drifted target states", "anchors": ["pkg/pipeline/pipeline.go:Sync"]}
{"id": "C21", "title": "Final state is independent of event order", "statement": "Two event histories that leave the same live objects leave the same target, regardless of intermediate states.", "quantifier": "all pairs of histories with equal outcome", "why_tests_cant": "pairs of unbounded histories", "anchors": ["pkg/pipeline/pipeline.go:Evaluate"]}
{"id": "C22", "title": "A failed evaluation leaves the pipeline consistent", "statement": "If evaluating one event fails, later events are still processed as if the failed event had never been delivered (or had been fully applied).", "quantifier": "all pipelines, all histories, all failure points", "why_tests_cant": "failure points inside a stage sequence are many; the damage shows only later", "anchors": ["pkg/pipeline/pipeline.go:Evaluate", "pkg/pipeline/zset_adaptor.go:ConvertDeltaToZSet", "pkg/dbsp/op_bilinear.go:IncrementalJoinOp.Process"]}
{"id": "C23", "title": "A failed target write is not lost", "statement": "If writing a computed change to the target fails and the event is retried, the target eventually holds the right object.", "quantifier": "all events, all failure points of the write, all retries", "why_tests_cant": "crash/failure point property", "anchors": ["pkg/controller/reconcilers.go:IncrementalReconciler.Reconcile", "pkg/pipeline/pipeline.go:Evaluate"]}
{"id": "C24", "title": "Concurrent sources do not reorder writes", "statement": "With several sources processed concurrently, the target ends in the state computed by the pipeline.", "quantifier": "all interleavings of the per-source workers", "why_tests_cant": "schedule property", "anchors": ["pkg/controller/reconcilers.go:IncrementalReconciler.Reconcile", "pkg/controller/declarative.go:NewDeclarative"]}
{"id": "C25", "title": "Merge patch semantics", "statement": "Patching keeps fields not mentioned, replaces mentioned scalars, merges mentioned maps recursively and removes fields set to null; patching twice with the same patch is the same as patching once; an empty patch changes nothing.", "quantifier": "all JSON documents and patches of any depth", "why_tests_cant": "recursion over arbitrarily nested documents", "anchors": ["pkg/object/patch.go:Patch", "pkg/object/patch.go:patch"]}
{"id": "C26", "title": "Inverse patch removes exactly the written fields", "statement": "When a Patcher target receives a delete, the generated patch removes every field the object had written and leaves all other fields untouched.", "quantifier": "all JSON objects written and all target contents", "why_tests_cant": "arbitrary nesting", "anchors": ["pkg/reconciler/target.go:removeNestedMap", "pkg/reconciler/target.go:removeNestedList", "pkg/reconciler/target.go:patch"]}
{"id": "C27", "title": "Merging projection parts", "statement": "A projection given as a list of parts yields the deep merge of the parts: every field of every part is present, later parts win on conflicting scalars.", "quantifier": "all lists of JSON objects", "why_tests_cant": "arbitrary nesting and list length", "anchors": ["pkg/object/utils.go:MergeAny", "pkg/pipeline/op.go:ProjectionOp.Evaluate"]}
{"id": "C28", "title": "View object UIDs", "statement": "View objects get a UID that is a function of their group, version, kind, namespace and name only; attaching and removing UIDs does not change any other field and never touches native objects.", "quantifier": "all objects", "why_tests_cant": "ranges over all objects", "anchors": ["pkg/object/uid.go:NewUID", "pkg/object/uid.go:WithUID", "pkg/object/uid.go:RemoveUID"]}
{"id": "C29", "title": "Secret decoding", "statement": "Decoding a Secret replaces every base64 string under data by its decoded text, leaves every other field and every non-Secret object unchanged.", "quantifier": "all objects", "why_tests_cant": "ranges over all objects", "anchors": ["pkg/object/secret.go:DecodeSecretData"]}
{"id": "C30", "title": "Boolean operators short-circuit", "statement": "@and/@or evaluate operands left to right, stop at the first deciding operand (later operands may be erroneous), and otherwise agree with boolean conjunction/disjunction; @not negates; De Morgan's laws hold for error-free operands.", "quantifier": "all operand lists of any length, all subjects", "why_tests_cant": "operand lists are unbounded", "anchors": ["pkg/expression/expression.go:Evaluate (@and,@or,@not)"]}
{"id": "C31", "title": "List quantifiers", "statement": "@any holds exactly if some element satisfies the predicate, @all exactly if every element does, @none exactly if no element does; @filter returns the satisfying elements in order; @map the images in order.", "quantifier": "all predicates and lists", "why_tests_cant": "lists are unbounded", "anchors": ["pkg/expression/expression.go:Evaluate (@any,@none,@all,@filter,@map)"]}
{"id": "C32", "title": "Comparison and equality operators", "statement": "On numbers @lt/@lte/@gt/@gte form a total order consistent with @eq; @eq is symmetric; @in agrees with @eq membership.", "quantifier": "all pairs of values", "why_tests_cant": "infinitely many values", "anchors": ["pkg/expression/expression.go:Evaluate (@eq,@lt,@lte,@gt,@gte,@in)"]}
{"id": "C33", "title": "Conditionals", "statement": "@cond, @switch and @definedOr return the value of exactly the branch selected by the first true (defined) guard and never evaluate later branches.", "quantifier": "all guard lists and subjects", "why_tests_cant": "unbounded lists", "anchors": ["pkg/expression/expression.go:Evaluate (@cond,@switch,@definedOr)"]}
{"id": "C34", "title": "Integer arithmetic and aggregates", "statement": "@add/@sub/@mul/@sum/@len/@min/@max on integer lists compute the mathematical result; @range lists the integers from its first argument up to, but not including, its second; @concat concatenates strings in order.", "quantifier": "all lists of integers", "why_tests_cant": "unbounded lists", "anchors": ["pkg/expression/expression.go:Evaluate (@add,@sub,@mul,@sum,@min,@max,@len,@range,@concat)"]}
{"id": "C35", "title": "Expression JSON round trip", "statement": "An expression written as JSON and read back is the same expression; copying an expression preserves it.", "quantifier": "all expressions of any depth", "why_tests_cant": "arbitrary nesting", "anchors": ["pkg/expression/marshaler.go:MarshalJSON", "pkg/expression/marshaler.go:UnmarshalJSON", "pkg/expression/marshaler.go:DeepCopyInto", "pkg/expression/literal.go:NewLiteralExpression"]}
{"id": "C36", "title": "Field path set/get", "statement": "Setting a field path and reading it back returns the value set and leaves fields on other paths unchanged. An expression made to set a path evaluates to an object with the value on that path and nothing elsewhere.", "quantifier": "all documents, field paths and values", "why_tests_cant": "arbitrary depth", "anchors": ["pkg/expression/jsonpath.go:SetJSONPathRaw", "pkg/expression/jsonpath.go:GetJSONPathRaw", "pkg/expression/literal.go:NewJSONPathSetExpression"]}
{"id": "C37", "title": "Label selector matching", "statement": "A label selector matches exactly the objects whose labels satisfy all its equality and set requirements.", "quantifier": "all selectors and label sets", "why_tests_cant": "unbounded label sets", "anchors": ["pkg/expression/selector.go:MatchLabels", "pkg/expression/selector.go:convertToLabelSelector"]}
{"id": "C38", "title": "View group naming", "statement": "Different operators get different view API groups, the operator name can be recovered from the group, native groups are never taken for view groups, and a native group/version mapped into a view group can be mapped back.", "quantifier": "all operator names, groups and versions", "why_tests_cant": "all strings", "anchors": ["pkg/api/view/v1alpha1/group_version.go"]}
{"id": "C39", "title": "Requests are routed to exactly one backend", "statement": "Every read and write goes to the in-memory view store exactly if the object is a view, and to the native API otherwise.", "quantifier": "all objects and operations", "why_tests_cant": "all strings as groups", "anchors": ["pkg/cache/composite.go", "pkg/cache/client.go"]}
{"id": "C40", "title": "The view store is a key-value map", "statement": "Getting an object returns the last version added or updated under its namespace/name and not deleted since; objects under other keys or kinds are unaffected; listing returns exactly the stored objects.", "quantifier": "all operation histories", "why_tests_cant": "unbounded histories", "anchors": ["pkg/cache/view_cache.go:Add", "pkg/cache/view_cache.go:Update", "pkg/cache/view_cache.go:Delete", "pkg/cache/view_cache.go:Get", "pkg/cache/view_cache.go:List", "pkg/cache/store.go"]}
{"id": "C41", "title": "Event handlers can reconstruct the store", "statement": "A handler registered on an informer that applies the events it receives in order ends with exactly the objects in the store, whether it was registered before, between or after the writes.", "quantifier": "all write histories and registration points", "why_tests_cant": "unbounded histories, registration points", "anchors": ["pkg/cache/view_cache_informer.go:AddEventHandler", "pkg/cache/view_cache_informer.go:TriggerEvent", "pkg/cache/view_cache.go"]}
{"id": "C42", "title": "Watch streams reconstruct the selected list", "statement": "A client that lists with a selector by opening a watch and then applies the watch events holds exactly the objects a fresh list with that selector would return.", "quantifier": "all selectors, all write histories", "why_tests_cant": "objects moving in and out of a selector", "anchors": ["pkg/cache/view_cache.go:Watch", "pkg/cache/view_cache.go:List"]}
{"id": "C43", "title": "Shared caches keep all operators informed", "statement": "Every informer of every operator sharing a view cache receives each write exactly once; removing one informer never affects the others.", "quantifier": "all registration/removal/write histories", "why_tests_cant": "unbounded histories", "anchors": ["pkg/cache/delegating_view_cache.go", "pkg/cache/view_cache.go:UnregisterDelegatingInformer"]}
{"id": "C44", "title": "View client write operations", "statement": "Create, Update, Patch, Delete and DeleteAllOf change exactly the addressed objects: Update of a missing object and Delete of a missing object fail without effect; Create of an existing object fails.", "quantifier": "all store states and requests", "why_tests_cant": "all states", "anchors": ["pkg/cache/view_client.go"]}
{"id": "C45", "title": "Create-or-update", "statement": "Creating or updating an object leaves the object in the desired state whether or not it existed, performs no write when nothing changes, and never overwrites a concurrent modification it has not seen.", "quantifier": "all store states and all interleavings with one concurrent writer", "why_tests_cant": "schedule property", "anchors": ["pkg/reconciler/ctrlutils.go:CreateOrUpdate", "pkg/reconciler/ctrlutils.go:Update"]}
{"id": "C46", "title": "Updater target", "statement": "An upsert on an Updater target leaves the object with exactly the new top-level content, keeping and merging metadata; a delete removes it; deleting a missing object is not an error.", "quantifier": "all prior target states and all upserted objects", "why_tests_cant": "all states", "anchors": ["pkg/reconciler/target.go:update", "pkg/reconciler/target.go:mergeMetadata"]}
{"id": "C47", "title": "Event to delta mapping", "statement": "Every create/update/delete event on a watched source that passes the source's filters yields exactly one request with the right delta type and the object's content at the time of the event.", "quantifier": "all event sequences", "why_tests_cant": "unbounded sequences", "anchors": ["pkg/reconciler/reconciler.go", "pkg/controller/reconcilers.go"]}
{"id": "C48", "title": "Predicate logic", "statement": "Composite predicates evaluate as the boolean combination of their parts; a predicate survives a JSON round trip.", "quantifier": "all predicates of any depth", "why_tests_cant": "arbitrary nesting", "anchors": ["pkg/predicate/predicate.go"]}
{"id": "C49", "title": "Namespace restriction", "statement": "A user whose token is restricted to a set of namespaces is never allowed a resource request outside them: neither on another namespace nor across all namespaces (unless the wildcard namespace is granted).", "quantifier": "all users, tokens and request attributes", "why_tests_cant": "security property over all requests", "anchors": ["pkg/auth/authorizer.go:Authorize"]}
{"id": "C50", "title": "RBAC decision", "statement": "A resource request is allowed exactly when the user has no rules at all or some rule matches verb, API group, resource and (for named, non-collection requests) resource name; adding rules never removes permissions; an unreadable rule set denies.", "quantifier": "all rule sets and requests", "why_tests_cant": "security property over all requests", "anchors": ["pkg/auth/rbac.go:CheckRBACAccess", "pkg/auth/rbac.go:ruleMatches", "pkg/auth/authorizer.go:Authorize"]}
{"id": "C51", "title": "Wildcard patterns", "statement": "A rule pattern with one '*' matches exactly the strings obtained by replacing the '*' with some string; patterns without '*' match only themselves.", "quantifier": "all patterns and values", "why_tests_cant": "all strings", "anchors": ["pkg/auth/rbac.go:matches", "pkg/auth/rbac.go:matchesWildcard"]}
{"id": "C52", "title": "Token round trip", "statement": "The user, namespaces and rules placed in a token are the ones enforced for requests bearing that token; a request without or with an invalid token gets no identity.", "quantifier": "all users, namespace lists and rule lists", "why_tests_cant": "all token contents", "anchors": ["pkg/auth/authenticator.go", "pkg/auth/token.go"]}
{"id": "C53", "title": "API group registration", "statement": "After any sequence of registrations and unregistrations the API server serves exactly the view resources of the currently registered groups.", "quantifier": "all registration histories", "why_tests_cant": "unbounded histories; stale entries need re-registration with a changed list", "anchors": ["pkg/apiserver/registry.go:RegisterAPIGroup", "pkg/apiserver/registry.go:UnregisterAPIGroup", "pkg/apiserver/resource_handler.go:addStorage", "pkg/apiserver/resource_handler.go:removeStorage"]}
{"id": "C54", "title": "Error report", "statement": "The status shows the most recent errors (at most ten) in order; a controller is reported ready exactly if no error was recorded, and not ready exactly if a critical error was recorded.", "quantifier": "all error sequences", "why_tests_cant": "unbounded sequences around the buffer limit", "anchors": ["pkg/controller/status_reporter.go", "pkg/controller/declarative.go:GetStatus"]}
{"id": "C55", "title": "Operator lifecycle", "statement": "After any sequence of operator create/update/delete events the controller runs exactly one instance of each existing operator, with its latest spec, and none of the deleted ones.", "quantifier": "all event sequences and start times", "why_tests_cant": "unbounded sequences; start-time interleaving", "anchors": ["pkg/kubernetes/controllers/operator.go"]}
{"id": "C56", "title": "REST mapping for views", "statement": "For every view kind the REST mapper returns the lower-case resource name in the same group, namespaced scope and the kind itself.", "quantifier": "all view kinds", "why_tests_cant": "all strings", "anchors": ["pkg/cache/view_restmapper.go", "pkg/cache/restmapper.go"]}
{"id": "C57", "title": "View discovery", "statement": "Discovery lists exactly the registered view kinds, each version of a group once; list kinds and object kinds convert back and forth without loss.", "quantifier": "all registration histories and kinds", "why_tests_cant": "all strings and histories", "anchors": ["pkg/cache/view_discovery.go"]}
{"id": "C58", "title": "Pipeline specification JSON", "statement": "A pipeline specification survives being written to JSON and read back; an operation with zero or several names or an unknown name is rejected.", "quantifier": "all pipelines", "why_tests_cant": "arbitrary lists", "anchors": ["pkg/api/operator/v1alpha1/pipeline_types.go"]}
{"id": "C59", "title": "Operator view kinds", "statement": "The kinds an operator exposes are exactly the view kinds of its own group used as source or target by its controllers, each once.", "quantifier": "all operators and controller lists", "why_tests_cant": "arbitrary lists", "anchors": ["pkg/operator/operator.go:GetGVKs", "pkg/controller/declarative.go:GetGVKs"]}
{"id": "C60", "title": "Request dispatch", "statement": "A resource request is answered from the view storage exactly if its group is a view group and its resource is registered and it names no subresource; every other request is delegated or rejected and never touches the store.", "quantifier": "all requests and registration states", "why_tests_cant": "all requests", "anchors": ["pkg/apiserver/resource_handler.go:ServeHTTP", "pkg/apiserver/resource_handler.go:routeRequest"]}
{"id": "C61", "title": "Patcher targets preserve the changes of others", "statement": "A Patcher target changes only the fields mentioned by the object it writes, also if somebody else modifies the target object between the snapshot or read and the write.", "quantifier": "all target objects, all concurrent modifications, all patches", "why_tests_cant": "needs interleavings of a write with every possible concurrent modification", "anchors": ["pkg/reconciler/target.go:patch", "pkg/reconciler/ctrlutils.go:Update"]}
{"id": "C62", "title": "Secrets are decoded exactly once", "statement": "The pipeline sees the data of a Secret decoded exactly once, on every attempt to process the event, and decoded data is never stored in the Secret by a target.", "quantifier": "all Secrets and any number of failed attempts", "why_tests_cant": "all values and any number of retries", "anchors": ["pkg/controller/reconcilers.go:IncrementalReconciler.Reconcile", "pkg/object/secret.go:DecodeSecretData", "pkg/reconciler/target.go:patch"]}
{"id": "C63", "title": "Object data is not evaluated", "statement": "Evaluating a map literal that copies a field of an object copies the value of the field as it is, whatever the value: strings stored in objects are data, not expressions.", "quantifier": "all objects, field paths and field values", "why_tests_cant": "Tests use well-behaved strings; the double evaluation only shows with values that look like paths, of which there are infinitely many.", "anchors": ["pkg/expression/jsonpath.go:SetJSONPath", "pkg/expression/expression.go:Evaluate"]}
{"id": "C64", "title": "Map literals evaluate deterministically", "statement": "The value of a map literal does not depend on the order in which its entries are visited.", "quantifier": "all map literals and all visiting orders", "why_tests_cant": "Go randomises map iteration, so a test run sees only some of the orders.", "anchors": ["pkg/expression/expression.go:Evaluate", "pkg/expression/jsonpath.go:SetJSONPath"]}
{"id": "C65", "title": "Resolving the kind of a source or target", "statement": "A source or target without a group, or with the operator's own group, is the operator's view of that kind in the view version; a view of another operator is resolved to that operator's view; native kinds are taken as given or resolved by the REST mapper; resolution fails only for an empty kind or an unknown native kind.", "quantifier": "all operator names, groups, versions and kinds, all REST mappers", "why_tests_cant": "all strings as groups and versions", "anchors": ["pkg/reconciler/resource.go:GetGVK", "pkg/reconciler/resource.go:getGVKByGroupKind"]}
{"id": "C66", "title": "Filtered sources", "statement": "What a filtered source has passed on to the pipeline adds up to exactly the existing objects that pass the filter.", "quantifier": "all event sequences and filters", "why_tests_cant": "unbounded sequences; the stale case needs an object that leaves the filter", "anchors": ["pkg/reconciler/source.go:GetSource", "pkg/predicate/predicate.go:FromLabelSelector", "pkg/predicate/predicate.go:FromNamespace"]}
{"id": "C67", "title": "Events are processed in order", "statement": "The pipeline is given the events of a source in the order in which they happened; in particular the last delta given for an object is that of its last event.", "quantifier": "all event sequences, failures and retry times", "why_tests_cant": "unbounded interleavings of events, failures and retries", "anchors": ["pkg/reconciler/reconciler.go:enqueue", "pkg/controller/reconcilers.go:IncrementalReconciler.Reconcile"]}
{"id": "C68", "title": "Ticks of periodic sources", "statement": "Ticks that arrive during a synchronisation are merged into one, and after every tick a synchronisation is started.", "quantifier": "all tick times and interleavings", "why_tests_cant": "timing and unbounded sequences", "anchors": ["pkg/reconciler/source.go:periodicRuntimeSource.Start", "pkg/controller/reconcilers.go:StateOfTheWorldReconciler.Reconcile"]}
{"id": "C69", "title": "Rules that name objects", "statement": "A user all of whose rules give resource names can only read or change objects of these names.", "quantifier": "all users, rules and requests", "why_tests_cant": "all combinations of rules, patterns, verbs and names", "anchors": ["pkg/auth/rbac.go:ruleMatches", "pkg/auth/rbac.go:CheckRBACAccess"]}
{"id": "C70", "title": "Namespace isolation of API requests", "statement": "Whatever a user restricted to some namespaces requests, no view object outside these namespaces is changed, and none is shown in the answer or by a watch.", "quantifier": "all users, requests, stores and registered kinds", "why_tests_cant": "all combinations of verbs, names, namespaces, bodies and selectors", "anchors": ["pkg/auth/authorizer.go:Authorize", "pkg/apiserver/resource_handler.go:routeRequest", "pkg/apiserver/storage.go:List", "pkg/apiserver/storage.go:Create", "pkg/apiserver/storage.go:Update", "pkg/apiserver/storage.go:DeleteCollection"]}
{"id": "C71", "title": "Meaning of the API verbs", "statement": "Reading verbs change nothing and answer with exactly the stored objects selected; a create stores a new object, an update replaces an existing one, a delete removes the addressed one and a delete of a collection the selected ones, and nothing else changes.", "quantifier": "all stores, kinds and requests", "why_tests_cant": "all stores and combinations of selectors and names", "anchors": ["pkg/apiserver/storage.go:Get", "pkg/apiserver/storage.go:List", "pkg/apiserver/storage.go:Create", "pkg/apiserver/storage.go:Update", "pkg/apiserver/storage.go:Delete", "pkg/apiserver/storage.go:DeleteCollection"]}
{"id": "C72", "title": "Status shown in the cluster", "statement": "The controller status in the cluster shows every recorded error, in particular critical ones.", "quantifier": "all error sequences and times", "why_tests_cant": "unbounded sequences of errors and times around the rate limit", "anchors": ["pkg/controller/status_reporter.go:push", "pkg/kubernetes/controllers/operator.go:Start"]}
{"id": "C73", "title": "Building controllers", "statement": "A controller is built exactly if it has a name, sources and a target, all kinds resolve, all sources can be watched and the pipeline is valid; it then watches all its sources and its pipeline takes the kinds of those that are not periodic. Otherwise exactly one critical error is recorded, and nothing is watched.", "quantifier": "all configurations and environments", "why_tests_cant": "all combinations of failures at every source", "anchors": ["pkg/controller/declarative.go:NewDeclarative"]}
{"id": "C74", "title": "Result documents become objects of the target kind", "statement": "A result document is turned into an object exactly if it has a metadata map with a nonempty name and a namespace that is absent or a string; the object has the kind and API version of the target, the name and namespace of the document and the document's other fields. Every write a pipeline ever emits is an upsert or delete of such an object.", "quantifier": "all documents, targets, pipelines and histories of events and syncs, successful or not", "why_tests_cant": "documents are arbitrary JSON and histories are unbounded", "anchors": ["pkg/pipeline/zset_adaptor.go:ConvertZSetToDelta", "pkg/pipeline/zset_adaptor.go:Reconcile"]}
{"id": "C75", "title": "End to end: the cluster holds what the pipeline computes", "statement": "After any history of source events, evaluated by the pipeline and written by an Updater target, the cluster holds exactly the images of the objects the pipeline computes from the live source objects; objects of other kinds are untouched.", "quantifier": "all pipelines, watch histories, iteration orders and initial clusters", "why_tests_cant": "composition over unbounded histories of arbitrary JSON objects", "anchors": ["pkg/pipeline/pipeline.go:Evaluate", "pkg/pipeline/zset_adaptor.go:ConvertZSetToDelta", "pkg/pipeline/zset_adaptor.go:Reconcile", "pkg/reconciler/target.go:update"]}
{"id": "C76", "title": "Which pipelines are accepted", "statement": "A pipeline specification is accepted exactly if it has a source, starts with a join when it has several sources, has no join anywhere else, every unwind names a path and every gather a key and a value path; a rejected part rejects the whole pipeline.", "quantifier": "all specifications, sources and targets", "why_tests_cant": "specifications are unbounded sequences of arbitrary expressions", "anchors": ["pkg/pipeline/pipeline.go:New", "pkg/pipeline/op.go:NewUnwindOp", "pkg/pipeline/op.go:NewGatherOp", "pkg/pipeline/op.go:NewJoinOp"]}
{"id": "C77", "title": "Select and join keep exactly what the condition is true of", "statement": "@select keeps exactly the documents the condition is true of, unchanged and with their multiplicities. @join yields exactly the combinations, one document per source under its kind, the condition is true of, with the product of the multiplicities. A condition without a boolean value is an error, never a silent drop.", "quantifier": "all conditions, collections and numbers of sources", "why_tests_cant": "collections and expressions are unbounded", "anchors": ["pkg/pipeline/op.go:SelectionOp.Evaluate", "pkg/pipeline/op.go:JoinOp.Evaluate", "pkg/dbsp/op_bilinear.go:cartesianJoin"]}
{"id": "C78", "title": "A projection yields exactly one document per document", "statement": "@project turns every document into exactly one document, the value of the expression or, for a list of objects, their merge in order; otherwise it fails.", "quantifier": "all expressions and collections", "why_tests_cant": "expressions, documents and collections are unbounded", "anchors": ["pkg/pipeline/op.go:ProjectionOp.Evaluate"]}
{"id": "C79", "title": "Unwind yields one distinctly named document per list element", "statement": "@unwind yields, for every element of the list at the path, one copy of the document with the element in place of the list and the index appended to the name; nothing for a missing list; unwound documents of differently named documents never have the same name; documents without a name are rejected.", "quantifier": "all documents, paths and lists", "why_tests_cant": "lists and names are arbitrary", "anchors": ["pkg/pipeline/op.go:UnwindOp.Extract", "pkg/pipeline/op.go:UnwindOp.Transform"]}
{"id": "C80", "title": "Gather yields one document per group with all its values", "statement": "@gather groups the documents by the key, skipping those without key or value, and yields per group one document of the group with the list of the values of all documents of the group at the value path. The result depends only on the collection.", "quantifier": "all key expressions, paths and collections", "why_tests_cant": "groups are unbounded and map iteration is random", "anchors": ["pkg/pipeline/op.go:NewGatherOp", "pkg/pipeline/op.go:GatherOp.Transform", "pkg/dbsp/op_nonlinear.go:GatherOp.Process"]}
{"id": "C81", "title": "Gathered values have a deterministic order", "statement": "The list a gather produces does not depend on the order in which the values were collected.", "quantifier": "all lists of JSON values, all orders", "why_tests_cant": "the comparison must be a total order on arbitrary mixed JSON values", "anchors": ["pkg/dbsp/op_nonlinear.go:sortValues"]}
{"id": "C82", "title": "Selections, projections and unwinds are maintained in the cluster", "statement": "A controller with one source whose pipeline consists of selections, projections that keep name and namespace, and unwinds keeps in the cluster exactly one target object per result of a live source object, whatever the history of the source; no two results collide.", "quantifier": "all specifications of this form, all watch histories, all iteration orders, all initial clusters without target objects", "why_tests_cant": "the pipeline, the objects and the histories are unbounded", "anchors": ["pkg/pipeline/pipeline.go:New", "pkg/pipeline/pipeline.go:Evaluate", "pkg/pipeline/op.go:NewSelectionOp", "pkg/pipeline/op.go:NewProjectionOp", "pkg/pipeline/op.go:NewUnwindOp", "pkg/reconciler/target.go:Write"]}
{"id": "C83", "title": "Joins are maintained in the cluster", "statement": "A controller with several sources whose pipeline is a join followed by selections and projections keeps in the cluster exactly one target object per tuple of live source objects that satisfies the condition, if the results of different tuples have different names; this is so if the metadata come from one source and each of its objects has at most one partner.", "quantifier": "all specifications of this form, all watch histories of all sources, all iteration orders", "why_tests_cant": "tuples over unbounded collections under arbitrary interleavings of events", "anchors": ["pkg/pipeline/pipeline.go:New", "pkg/pipeline/pipeline.go:Evaluate", "pkg/pipeline/op.go:NewJoinOp", "pkg/dbsp/op_bilinear.go:IncrementalJoinOp.Process", "pkg/reconciler/target.go:Write"]}
{"id": "C84", "title": "Whole pipelines, with gathers, are maintained in the cluster", "statement": "A controller whose pipeline is any sequence of an optional join, selections, projections, unwinds and gathers keeps in the cluster exactly the objects made of what the pipeline computes from the live source objects, where the computation is stated on lists of documents without deltas; no evaluation fails if the operations succeed on the objects of the history. Names are unique after a gather if documents of the same name are in the same group.", "quantifier": "all specifications, all watch histories of all sources, all iteration orders, all initial clusters without target objects", "why_tests_cant": "the pipeline, the collections, the groups and the histories are unbounded and gathers depend on the iteration order of maps", "anchors": ["pkg/pipeline/pipeline.go:New", "pkg/pipeline/pipeline.go:Evaluate", "pkg/pipeline/op.go:NewGatherOp", "pkg/pipeline/op.go:NewJoinOp", "pkg/dbsp/op_nonlinear.go:GatherOp.Process", "pkg/reconciler/target.go:Write"]}
{"id": "C85", "title": "Writes are exactly the changes", "statement": "The writes emitted for an event are exactly those that lead from the objects the pipeline computes from the live sources before the event to those it computes after it: an object is upserted only if its document is new, deleted only if no document of its name is left. An event that does not change the results causes no write, so a controller that writes objects it also watches is not kept awake by its own writes.", "quantifier": "all pipelines, watch histories, events and iteration orders", "why_tests_cant": "all histories and pipelines", "anchors": ["pkg/pipeline/pipeline.go:Evaluate", "pkg/pipeline/zset_adaptor.go:Reconcile", "pkg/pipeline/zset_adaptor.go:ConvertZSetToDelta"]}
{"id": "C86", "title": "Operators settle on their views", "statement": "In an operator with several controllers that communicate through the objects they write and watch, whenever a controller has no queued events and no writes left to send its target holds exactly images of the objects its pipeline computes from the objects of its sources that are in the store at that moment, whatever users and the other controllers did before and in whatever order.", "quantifier": "all operators, all interleavings of user writes, evaluations and single writes of the controllers, all iteration orders", "why_tests_cant": "the interleavings and the number of controllers and objects are unbounded", "anchors": ["pkg/operator/operator.go:AddDeclarativeController", "pkg/controller/reconcilers.go:IncrementalReconciler.Reconcile", "pkg/reconciler/source.go:GetSource", "pkg/reconciler/target.go:Write", "pkg/pipeline/pipeline.go:Evaluate", "pkg/cache/view_cache.go:Update"]}
{"id": "C87", "title": "Operators without feedback come to rest", "statement": "If no controller of an operator is fed by its own target, directly or through other controllers, then after any user changes the controllers can only do finitely many steps, in whatever order; if evaluations do not fail they come to rest with all queues empty and all writes sent, and then all targets are up to date.", "quantifier": "all operators without cycles, all reachable states, all schedules", "why_tests_cant": "termination for all schedules and states", "anchors": ["pkg/operator/operator.go:AddDeclarativeController", "pkg/controller/reconcilers.go:IncrementalReconciler.Reconcile", "pkg/pipeline/pipeline.go:Evaluate"]}
{"id": "C88", "title": "A Patcher keeps the fields of the live results in the patched objects", "statement": "A controller with a Patcher target keeps in an existing object of its target's kind every scalar field of the live result of that name, leaves every field alone that no result of that name ever mentioned, and removes the fields of the last result of that name when there is none any more, whatever others do to other fields of the object and to other objects in the meantime.", "quantifier": "all pipelines, all watch histories, all iteration orders, all clusters, all interleaved changes by others", "why_tests_cant": "histories, objects and interleavings are unbounded", "anchors": ["pkg/reconciler/target.go:Write", "pkg/reconciler/target.go:patch", "pkg/object/patch.go:Patch", "pkg/pipeline/pipeline.go:Evaluate", "pkg/pipeline/zset_adaptor.go:Reconcile"]}
{"id": "C89", "title": "The shipped configmap-deployment operator keeps its promise", "statement": "The operator in examples/configmap-deployment-controller keeps in the pod template of every Deployment that a ConfigDeployment object links to a ConfigMap an annotation with the current resource version of that ConfigMap, removes it when the link is gone, changes nothing else in any Deployment, never fails, and is not woken up for ever by its own patches.", "quantifier": "all watch histories of the three kinds, all iteration orders, all clusters, all interleaved changes by others", "why_tests_cant": "the e2e test of the example tries a few objects; histories, objects and interleavings are unbounded", "anchors": ["examples/configmap-deployment-controller/configdeployment-operator.yaml", "pkg/pipeline/pipeline.go:Evaluate", "pkg/expression/expression.go:Evaluate", "pkg/reconciler/target.go:Write", "pkg/api/operator/v1alpha1/pipeline_types.go:UnmarshalJSON"]}
{"id": "C90", "title": "The shipped service health operator annotates Services with the right numbers", "statement": "The controller svc-health-monitor of examples/service-health-monitor keeps in every Service that has the name and the namespace of a HealthView the annotation dcontroller.io/pod-ready with the number of the ready pods in the HealthView, a slash, and the number of all its pods, removes it when the HealthView is gone, changes nothing else in any Service, never fails, and is not woken up for ever by its own patches.", "quantifier": "all watch histories of the two kinds, all lists of pods, all iteration orders, all clusters, all interleaved changes by others", "why_tests_cant": "the e2e test of the example tries a few objects; histories, lists, objects and interleavings are unbounded", "anchors": ["examples/service-health-monitor/svc-health-operator.yaml", "pkg/pipeline/pipeline.go:Evaluate", "pkg/expression/expression.go:Evaluate", "pkg/reconciler/target.go:Write", "pkg/api/operator/v1alpha1/pipeline_types.go:UnmarshalJSON"]}
{"id": "C91", "title": "The shipped service health operator lists the pods of every application", "statement": "The controller pod-health-monitor of examples/service-health-monitor keeps exactly one HealthView for each application and namespace that has a monitored pod, with the name of the application and the namespace of its pods; it lists exactly the live pods of that application in that namespace, each once, with the status of the condition Ready; other kinds are not touched and no evaluation fails.", "quantifier": "all watch histories of pods, all numbers of pods and applications, all iteration and sort orders, all clusters without HealthViews", "why_tests_cant": "the e2e test of the example tries a few pods; histories, pods, names and orders are unbounded", "anchors": ["examples/service-health-monitor/svc-health-operator.yaml", "pkg/pipeline/pipeline.go:Evaluate", "pkg/pipeline/op.go:GatherOp.Transform", "pkg/dbsp/op_nonlinear.go:GatherOp.Process", "pkg/expression/jsonpath.go:GetJSONPath", "pkg/reconciler/target.go:Write"]}
{"id": "C92", "title": "The two controllers of the service health operator together count the live pods", "statement": "When the controllers of examples/service-health-monitor have processed the pods, the HealthViews and the Services, then the annotation dcontroller.io/pod-ready of a Service is the number of the live ready monitored pods of its name and namespace, a slash, and the number of all of them; if there are none, there is no HealthView for the Service.", "quantifier": "all watch histories of pods, HealthViews and Services, all iteration and sort orders, all clusters, all interleaved changes of Services by others", "why_tests_cant": "the e2e test of the example tries a few objects; histories, objects, orders and interleavings are unbounded", "anchors": ["examples/service-health-monitor/svc-health-operator.yaml", "examples/service-health-monitor/README.md", "pkg/pipeline/pipeline.go:Evaluate", "pkg/reconciler/target.go:Write"]}
{"id": "C93", "title": "The service controller of the endpoint slice example makes one ServiceView per port", "statement": "The first controller of examples/endpointslice-controller keeps, for each port of each live Service with the annotation dcontroller.io/endpointslice-controller-enabled, exactly one ServiceView in the namespace of the Service, holding the port, the name of the Service and its type, and no other ServiceView; no evaluation fails, and views of different Services never share a name.", "quantifier": "all watch histories of Services, all iteration orders, all clusters without ServiceViews to begin with", "why_tests_cant": "the tests of the example try a few Services; histories, Services and lists of ports are unbounded", "anchors": ["examples/endpointslice-controller/endpointslice-operator.yaml", "examples/endpointslice-controller/README.md", "pkg/pipeline/pipeline.go:Evaluate", "pkg/reconciler/target.go:Write"]}
{"id": "C94", "title": "The endpoint slice controller of the example makes one EndpointView per port and ready address", "statement": "The second controller of examples/endpointslice-controller keeps, for each combination of a live ServiceView and a ready address in the live EndpointSlices of its Service, exactly one EndpointView in the namespace of the ServiceView, named by the Service and the hash of the combination, with the combination as its spec, and no other EndpointView; no evaluation fails.", "quantifier": "all watch histories of ServiceViews and EndpointSlices, all iteration orders, all clusters without EndpointViews to begin with", "why_tests_cant": "the tests of the example try a few EndpointSlices; histories, slices, endpoints and addresses are unbounded, and the order in which an address appears in and disappears from several slices matters", "anchors": ["examples/endpointslice-controller/endpointslice-operator.yaml", "examples/endpointslice-controller/README.md", "pkg/pipeline/pipeline.go:Evaluate", "pkg/reconciler/target.go:Write"]}
{"id": "C95", "title": "Literals stand for themselves", "statement": "Every JSON value is an expression, and a value without operators and paths evaluates to itself in every context: strings, integers, floats, booleans, null, lists and maps.", "quantifier": "all JSON values, all contexts, all environments", "why_tests_cant": "the tests try one literal of each kind; values nest without bound and the special forms interact", "anchors": ["pkg/expression/marshaler.go:UnmarshalJSON", "pkg/expression/expression.go:Evaluate", "pkg/expression/jsonpath.go:SetJSONPath", "doc/reference-expression.md"]}
{"id": "C96", "title": "Type conversions convert", "statement": "@string turns a value into its text, @int turns exactly the decimal numerals of 64-bit integers into integers and fails on anything else that is no number, @float and @bool convert to floats and booleans; an integer turned into a string and back is the same.", "quantifier": "all argument expressions, all contexts, all 64-bit integers, all strings", "why_tests_cant": "the set of strings and integers is unbounded; sign, leading zeros and the limits of the range are corner cases", "anchors": ["pkg/expression/converter.go:AsString", "pkg/expression/converter.go:AsInt", "pkg/expression/converter.go:AsFloat", "pkg/expression/converter.go:AsBool", "pkg/expression/expression.go:Evaluate", "doc/reference-expression.md"]}
{"id": "C97", "title": "@hash, @rnd, @exists and @isnil", "statement": "@hash returns six characters that depend on the value of its argument alone; @rnd returns an integer from the lower bound up to the upper bound exclusively; @exists on a path of fields tells whether the field is there and not null; @isnil is its negation.", "quantifier": "all argument expressions, all contexts, all bounds, all paths and documents", "why_tests_cant": "random numbers and hashes are not reproducible facts about single runs; the bounds and documents are unbounded", "anchors": ["pkg/expression/expression.go:Evaluate", "pkg/expression/jsonpath.go:GetJSONPath", "doc/reference-expression.md"]}
{"id": "C98", "title": "The endpoint slice operator of the example makes one EndpointView per Service port and ready address", "statement": "With both controllers of examples/endpointslice-controller at rest, there is, for each port of each live Service with the annotation and each ready address in the live EndpointSlices of that Service, exactly one EndpointView in the namespace of the Service, named by the Service and the hash of its spec, whose spec has the port, protocol and target port of the port, the address, and the name and type of the Service; there is no other EndpointView; no evaluation fails.", "quantifier": "all watch histories of Services, ServiceViews and EndpointSlices in which the second controller sees what the first has written, all iteration orders, all clusters without views to begin with", "why_tests_cant": "the tests of the example try a few Services and EndpointSlices; the numbers of Services, ports, slices, endpoints and addresses and the lengths of the histories are unbounded", "anchors": ["examples/endpointslice-controller/endpointslice-operator.yaml", "pkg/pipeline/pipeline.go:Evaluate", "pkg/pipeline/op.go:UnwindOp", "pkg/reconciler/target.go:Write"]}
{"id": "C99", "title": "A one-shot source triggers its controller exactly once", "statement": "A controller with a one-shot source of a view kind gets exactly one event about the trigger object, its addition with the time of the start, whatever the other controllers and operators do to other objects before, while and after it starts, and also when the operator is started again; if nobody writes the kind, it is the only event it ever gets. Creating the trigger and starting the source cannot fail.", "quantifier": "all reachable cache states, all operations of others between creating the trigger, starting the source and any later time, all orders of the initial list", "why_tests_cant": "the interleaving of other writers with the start of the source is unbounded; a test sees one", "anchors": ["pkg/reconciler/source.go:oneShotSource.GetSource", "pkg/cache/view_client.go:Create", "pkg/cache/delegating_view_cache.go:GetInformerForKind", "pkg/cache/view_cache_informer.go:AddEventHandler"]}
{"id": "C100", "title": "Table rows show what is in the object", "statement": "In the table of a list there is a row for each object in the order of the list, with one cell under each column; the conditions cell shows the conditions that have a type and a status, Ready, Available, Progressing, Degraded first in this order and all others after them, each as they come, at most three and how many more there are; the labels cell shows the labels, the same for the same object; the annotations cell the number of annotations.", "quantifier": "all objects, all lists of conditions of any shape, all label sets and iteration orders", "why_tests_cant": "the lists of conditions are unbounded and may contain anything; map iteration is random", "anchors": ["pkg/apiserver/storage.go:ConvertToTable", "pkg/apiserver/storage.go:objectToTableRow", "pkg/apiserver/storage.go:extractConditionsSummary", "pkg/apiserver/storage.go:formatLabels", "pkg/apiserver/storage.go:formatAnnotations"]}
{"id": "C101", "title": "The drawing of an operator shows who reads and writes what", "statement": "The graph drawn of an operator has, for every controller, an edge from each of its sources and an edge to its target, labelled with the type of the source or target, and no other edges.", "quantifier": "all operators: any number of controllers, sources and targets", "why_tests_cant": "the number of controllers and the ways they share views are unbounded", "anchors": ["pkg/visualize/visualize.go:BuildGraph", "pkg/visualize/visualize.go:buildConnections", "pkg/visualize/visualize.go:IsTerminalView", "pkg/visualize/visualize.go:BuildDotGraph"]}
{"id": "C102", "title": "State-of-the-world reconciliation repairs the target", "statement": "A tick of a periodic source all of whose writes succeed leaves in the target, for every object the pipeline computes from the live sources, exactly that object, and none of the objects the controller made earlier that are not computed any more, whatever others have changed, removed or created in the target in between.", "quantifier": "all pipelines that have a snapshot form, all histories of events and ticks, all contents of the target before the tick", "why_tests_cant": "ranges over all contents of the target and all histories", "anchors": ["pkg/controller/reconcilers.go:StateOfTheWorldReconciler.Reconcile", "pkg/pipeline/pipeline.go:Sync", "pkg/pipeline/zset_adaptor.go:Reconcile"]}
{"id": "C103", "title": "Discovery finds views and native resources", "statement": "Through the composite discovery client every registered view is found under its group and version, every native resource as the native API server gives it, and nothing else.", "quantifier": "all histories of registrations, all answers of the native client, all group versions", "why_tests_cant": "all strings and histories", "anchors": ["pkg/cache/discovery.go:ServerResourcesForGroupVersion", "pkg/cache/discovery.go:ServerGroupsAndResources", "pkg/cache/discovery.go:ServerPreferredResources", "pkg/cache/discovery.go:WithLegacy", "pkg/cache/view_discovery.go:ServerGroupsAndResources", "pkg/cache/restmapper.go:NewCompositeRESTMapper"]}
{"id": "C104", "title": "Operators that share a cache share their views", "statement": "Operators created with the same shared cache write all views to and read all views from the same storage, in whatever order they write; native objects go to the cluster; an operator without a shared cache has a storage of its own.", "quantifier": "all numbers of operators, all orders of writes, all objects, with and without a configuration", "why_tests_cant": "ranges over all interleavings of the writes of any number of operators", "anchors": ["pkg/manager/manager.go:CacheInjector", "pkg/manager/manager.go:New", "pkg/manager/manager.go:NewHeadless", "pkg/cache/client.go:SetCache"]}
{"id": "C105", "title": "A generated kubeconfig grants what was asked for", "statement": "A kubeconfig made by generate-config authenticates its user and grants exactly the namespaces, rules and resource names given on the command line, until it expires; if the rules cannot be read none is made; get-config shows the rights the API server enforces.", "quantifier": "all flags, rules, keys, token libraries meeting their contract, times and requests", "why_tests_cant": "all texts on the command line and all requests", "anchors": ["main.go:runGenerateConfig", "main.go:parseCommaSeparated", "main.go:runGetConfig", "pkg/auth/kubeconfig.go:GenerateKubeconfig", "pkg/auth/kubeconfig.go:ExtractTokenFromKubeconfig"]}
{"id": "C106", "title": "Errors of controllers reach the status in the cluster", "statement": "Errors that pass the rate limiters are passed on to the operator controller without loss and in order; every status written was the status of the operator at some time; and once the errors on their way have arrived, which takes finitely many steps, the status in the cluster shows all errors up to those the rate limiters dropped at the end. Nothing panics.", "quantifier": "all interleavings of the goroutines of the operator controller, its operators and their controllers, all numbers of operators and controllers, all errors and times", "why_tests_cant": "unboundedly many interleavings of several goroutines and of failures of the cluster", "anchors": ["pkg/kubernetes/controllers/operator.go:Start", "pkg/kubernetes/controllers/operator.go:startOp", "pkg/kubernetes/controllers/operator.go:Reconcile", "pkg/kubernetes/controllers/operator.go:UpsertOperator", "pkg/kubernetes/controllers/operator.go:DeleteOperator", "pkg/kubernetes/controllers/operator.go:updateStatus", "pkg/controller/status_reporter.go:push"]}
{"id": "C107", "title": "OpenAPI definitions follow registration", "statement": "The OpenAPI definitions served describe exactly the registered view kinds: one definition for each kind and one for lists of it, beside those of the library. This holds whatever the order and overlap of requests, registrations and unregistrations, and whatever the order maps are traversed in.", "quantifier": "all interleavings of requests, registrations and unregistrations, all kinds, all map orders, all definitions of the library", "why_tests_cant": "unboundedly many interleavings of requests with registrations; tests ask once, after registration", "anchors": ["pkg/apiserver/openapi.go:getOpenAPIv2Handler", "pkg/apiserver/openapi.go:getOpenAPIv3Handler", "pkg/apiserver/openapi.go:generateOpenAPIDefs", "pkg/apiserver/openapi.go:genOpenAPIDef", "pkg/apiserver/openapi.go:genOpenAPIListDef", "pkg/apiserver/registry.go:RegisterAPIGroup", "pkg/apiserver/registry.go:UnregisterAPIGroup"]}
{"id": "C108", "title": "Registering kinds never takes the server down", "statement": "Whatever kinds were registered and unregistered before, registering a view group with at least one kind succeeds; the type scheme then knows its kinds as objects and their lists as lists.", "quantifier": "all histories of registrations and unregistrations, all kinds, all library kinds", "why_tests_cant": "whether a registration fails depends on the whole history, unregistered kinds included", "anchors": ["pkg/apiserver/registry.go:addTypesToScheme", "pkg/apiserver/registry.go:RegisterAPIGroup", "pkg/apiserver/resource.go:listGVK"]}
{"id": "C109", "title": "Operators are what they declare", "statement": "Every operator has the algebraic properties its type and flags declare, over whole streams of inputs and with its state: operators declared linear map the sum of two streams to the sum of their results, and run on accumulated inputs they put out accumulated results (so the rewriter may use them unchanged on changes); joins are linear in each input; operators declared non-linear are not linear; all are time invariant and preserve zero. This includes fused operators, whatever is fused.", "quantifier": "all operators with all evaluators, all streams of inputs on which the operators do not fail", "why_tests_cant": "the declarations are about all pairs of streams of any length; the tests only read the declared values back", "anchors": ["pkg/dbsp/op.go:OpType", "pkg/dbsp/op_linear.go:Process", "pkg/dbsp/op_bilinear.go:Process", "pkg/dbsp/op_misc.go:Process", "pkg/dbsp/op_nonlinear.go:Process", "pkg/dbsp/fused_op.go:OpType", "pkg/dbsp/rewrite_engine.go:CanApply"]}
{"id": "C110", "title": "Sharing of documents never shows", "statement": "Z-sets, states of operators and results share documents in memory instead of copying them. Still the engine computes what it would compute on values: whatever the caller does with results and with the rest of memory between calls, every result is the one of the engine on values; the engine writes to no cell that existed before the call; results share no cell with what the engine keeps. A deep copy ends for every value without cycles, stands for the same value, and shares nothing with the original.", "quantifier": "all graphs of joins and chain operators, all states of memory, all sharing within and between documents, all evaluators that keep to their contracts, all sequences of calls", "why_tests_cant": "aliasing bugs show only when a shared document is written later, for some layout of memory and some sequence of calls", "anchors": ["pkg/dbsp/document.go:DeepCopyAny", "pkg/dbsp/zset.go:AddDocumentMutate", "pkg/dbsp/zset.go:DeepCopy", "pkg/dbsp/zset.go:Add", "pkg/dbsp/op_linear.go:Process", "pkg/dbsp/op_bilinear.go:Process", "pkg/dbsp/op_nonlinear.go:Process", "pkg/dbsp/op_misc.go:Process", "pkg/dbsp/fused_op.go:Process", "pkg/dbsp/executor.go:Process"]}
{"id": "C111", "title": "Sources and targets follow their specification", "statement": "Every source is of the type its specification names, a watcher by default, and unknown types are rejected; the pipeline takes exactly the sources that are not periodic. A periodic source has the period its parameters ask for, five minutes by default, and wrong periods are rejected. It starts exactly if the period is positive, adds its i-th request no earlier than i periods after the start and misses none, adds nothing after it has stopped, and its requests are merged in the queue while they wait. A target updates or patches as its type says.", "quantifier": "all source and target specifications, all parameter values and period texts, all runs of a periodic source in any interleaving of time, its goroutine, the work queue and cancellation", "why_tests_cant": "the texts, parameters and interleavings are unbounded; the tests use a few valid periods and one source type each", "anchors": ["pkg/reconciler/source.go:NewSource", "pkg/reconciler/source.go:NewPeriodicSource", "pkg/reconciler/source.go:Start", "pkg/reconciler/target.go:NewTarget", "pkg/reconciler/target.go:Write", "pkg/controller/declarative.go:NewDeclarative"]}
{"id": "C112", "title": "The endpoint slice operator with gather lists all ready addresses of each port", "statement": "In the gather variant of the shipped endpoint slice example, the first controller keeps one ServiceView for each port of each annotated Service, named by the Service, the protocol and the number of the port. The second keeps one EndpointView for each such port with a ready address, and no other; it lists all ready addresses in all EndpointSlices of the Service, each as often as it is there, with the fields of the port and the type of the Service. So unlike without gather (C94), an address in two slices is not lost when one of them drops it.", "quantifier": "all histories of Services, ServiceViews and EndpointSlices in any order of evaluation, all names, namespaces, ports, endpoints and addresses", "why_tests_cant": "the tests run one scenario with a fixed set of services and slices; histories, duplicates and orders of evaluation are unbounded", "anchors": ["examples/endpointslice-controller/endpointslice-controller-gather-spec.yaml:service-controller", "examples/endpointslice-controller/endpointslice-controller-gather-spec.yaml:endpointslice-controller", "pkg/pipeline/pipeline.go:Evaluate", "pkg/pipeline/pipeline.go:NewPipeline", "pkg/dbsp/op_nonlinear.go:Process"]}
{"id": "C113", "title": "Node identifiers never show", "statement": "The operator graph keeps its operators in a map under generated identifiers, and the rewrite rules edit that map while they walk over the chain of identifiers. Whatever sequence of building, replacing, optimizing, processing, resetting and converting is called on a graph, no identifier lacks its node or is given twice, no removed node stays behind, the output is the last node, nothing panics, and every answer is that of a graph that holds its operators directly. So a compiled pipeline behaves as the one the other claims are about.", "quantifier": "all sequences of calls of any length, all operators, all inputs, all orders of iteration", "why_tests_cant": "the tests look at a few small graphs after single rules; sequences of rewrites on chains of any length, and dangling identifiers that only a later call would meet, are unbounded", "anchors": ["pkg/dbsp/chain.go:AddInput", "pkg/dbsp/chain.go:SetJoin", "pkg/dbsp/chain.go:AddToChain", "pkg/dbsp/chain.go:ReplaceInChain", "pkg/dbsp/chain.go:Validate", "pkg/dbsp/rewrite_engine.go:Optimize", "pkg/dbsp/executor.go:Process", "pkg/dbsp/executor.go:Reset", "pkg/dbsp/graph_converter.go:convertGraph", "pkg/pipeline/pipeline.go:New"]}
{"id": "C114", "title": "The result of a node can be looked at", "statement": "GetNodeResult returns for the join or an operator of the chain what the graph that ends there would return for the same inputs, is an error for other identifiers, and looking does not change what is processed later.", "quantifier": "all graphs reached by any sequence of calls, all nodes, all inputs", "why_tests_cant": "no test calls the function; graphs and states are unbounded", "anchors": ["pkg/dbsp/executor.go:GetNodeResult"]}
{"id": "C115", "title": "Generated keys fit and stay private", "statement": "The files written by generate-keys are a pair that start accepts and from which generate-config can make tokens; the certificate is for exactly the hosts given. A kubeconfig made with the key file gives, at a server started with both files, exactly the rights asked for. Nobody but its owner can read the private key.", "quantifier": "all keys, hosts, file names, states of the file system and file mode masks, all users, rules and requests", "why_tests_cant": "tests call the library functions on fresh files with one host and never run the commands; the permissions depend on what is there already and on the mask of the process", "anchors": ["main.go:runGenerateKeys", "main.go:checkCert", "pkg/auth/token.go:GenerateSelfSignedCertWithSANs", "pkg/auth/token.go:WriteCertAndKey", "pkg/auth/token.go:ParsePrivateKey", "pkg/auth/token.go:ParsePublicKey", "pkg/auth/token.go:LoadPrivateKey", "pkg/auth/token.go:LoadPublicKey"]}
{"id": "C116", "title": "Start exposes what the flags say", "statement": "The API server started by dctl start lets requests without a token through only if a flag says so, otherwise exactly those whose token, signed with the key of the server, allows them. It listens on the address and port given, uses the certificate given, and refuses files it cannot use with an error.", "quantifier": "all combinations of flags, all contents of the files, all requests at all times", "why_tests_cant": "no test runs the command; combinations of flags, labels and formats in the files are unbounded", "anchors": ["main.go:runStartServer", "main.go:checkCert", "pkg/apiserver/config.go:NewDefaultConfig", "pkg/apiserver/builder.go:createServerConfig"]}
{"id": "C117", "title": "One instance of the API server at a time", "statement": "At any time at most one call of Start of an API server serves requests, further calls are refused while one does, and after it has ended the server can be started again.", "quantifier": "all interleavings of any number of calls of Start and cancellations", "why_tests_cant": "tests start a server once; interleavings are unbounded", "anchors": ["pkg/apiserver/apiserver.go:Start", "pkg/apiserver/apiserver.go:runServerInstance"]}
{"id": "C118", "title": "Patching controllers come to rest", "statement": "An operator whose controllers patch objects of kinds that they watch does not work for ever on its own patches: after the last change by users, whenever it came, the controllers do finitely many steps, and then every object that a pipeline computes from what is in the store is in the patched field of the object of that name, and the field of all other objects is gone.", "quantifier": "all interleavings of users, evaluations and patches, all orders of patches to different objects, any number of controllers, all objects", "why_tests_cant": "tests change one object at a time and wait for the result; changes between an evaluation and its patch, and schedules, are unbounded", "anchors": ["pkg/reconciler/target.go:patch", "pkg/reconciler/ctrlutils.go:Update", "pkg/controller/reconcilers.go:Reconcile", "pkg/reconciler/source.go:GetSource", "examples/configmap-deployment-controller/configdeployment-operator.yaml"]}
{"id": "C119", "title": "View objects made of native objects", "statement": "The view object that is made of a native object is an object of the view kind of the operator, has the name and namespace of the native object, and has every other field of it as it was, labels and annotations included; setting the content of an object never changes its group, version, kind, name or namespace.", "quantifier": "all native objects, all operator and view names", "why_tests_cant": "tests convert a few objects with plain names; the fields that must survive and the names are unbounded", "anchors": ["pkg/object/object.go:NewViewObjectFromNativeObject", "pkg/object/object.go:NewViewObject", "pkg/object/object.go:SetContent", "pkg/object/object.go:SetName"]}
{"id": "C120", "title": "Operators that annotate what they watch come to rest with the right annotations", "statement": "The operator that writes the type of a Service to the EndpointSlices that name it in a label, and the operator that writes the version of a ConfigMap to the Deployments that name it in an annotation, both of which watch the objects that they patch, do only finitely many steps after the last change by a user; when they can do no more, every object that names an existing Service or ConfigMap has its value in the annotation, and the others do not have the annotation.", "quantifier": "all sets of objects, all interleavings of changes by users with evaluations and patches of the operator, all evaluation orders", "why_tests_cant": "the end-to-end tests use two or three objects and one order of events; a run that never ends, or that ends with a wrong annotation, needs a change between an evaluation and its patch", "anchors": ["test/endpointslice_annotator.yaml", "test/deployment_configmap_handler.yaml", "pkg/reconciler/target.go:patch", "pkg/reconciler/ctrlutils.go:Update", "pkg/controller/reconcilers.go:Reconcile"]}
{"id": "C121", "title": "The operators of the documentation that annotate the Pods they watch come to rest with the right annotations", "statement": "The operator of the README, which writes the number of the containers of a Pod to an annotation of the Pod, and the one of the getting-started guide, which writes a constant, both of which have Pods as their only source and as their target, do only finitely many steps after the last change by a user; when they can do no more, every Pod has the number of its containers, or the constant, in the annotation.", "quantifier": "all sets of Pods, all interleavings of changes by users with evaluations and patches of the operator, all evaluation orders", "why_tests_cant": "the documented operators are tried with one Pod that nobody changes meanwhile; a run that never ends needs a change between an evaluation and its patch", "anchors": ["README.md", "doc/getting-started.md", "pkg/reconciler/target.go:patch", "pkg/reconciler/ctrlutils.go:Update", "pkg/controller/reconcilers.go:Reconcile"]}
{"id": "C122", "title": "Objects in the view cache share no memory with anybody", "statement": "Whatever the rest of the program writes at any time to the objects it has given to the view cache, got from it or received in events, every Get, List and event has the content that was written to the cache: nothing of what is stored or about to be handed to handlers can be reached by the rest of the program, its memory is never written again, and every object handed out, including the old version in updates, consists of new memory.", "quantifier": "all memories, all sequences of Add, Update, Delete, Get, List, handler registrations and handler calls, interleaved with any allocations and writes of the rest of the program to what it can reach", "why_tests_cant": "a test writes to one field of one object and looks at one other copy; sharing anywhere in a nested value needs all paths through memory", "anchors": ["pkg/object/object.go:DeepCopy", "pkg/object/object.go:DeepCopyInto", "pkg/object/uid.go:WithUID", "pkg/cache/view_cache.go:Add", "pkg/cache/view_cache.go:Update", "pkg/cache/view_cache.go:Delete", "pkg/cache/view_cache.go:Get", "pkg/cache/view_cache.go:List", "pkg/cache/util.go:AppendToListItem", "pkg/cache/view_cache_informer.go:TriggerEvent", "pkg/cache/view_cache_informer.go:sendInitialEvents", "pkg/cache/view_cache_informer.go:GetIndexer"]}
{"id": "C123", "title": "What is fed to a pipeline can be reused", "statement": "Feeding a delta to a pipeline writes to nothing that existed before the call: neither to the object of the delta nor to anything the caller can reach, nor to an object kept in the source cache. Afterwards the source cache and the operators of the graph hold nothing of that object, share nothing with each other and nothing with the answer. So whatever the rest of the program does between calls to the objects it has given to the pipeline and to the answers it got, all answers are those to the contents at the time of the calls.", "quantifier": "all memories, all pipelines, all sequences of deltas of all types, all changes in between to memory the pipeline does not hold", "why_tests_cant": "a test changes one field of one object after one call; what a pipeline retains depends on the operators, the type of the delta and the whole history", "anchors": ["pkg/pipeline/zset_adaptor.go:ConvertDeltaToZSet", "pkg/cache/store.go:Add", "pkg/cache/store.go:Update", "pkg/cache/store.go:Delete", "pkg/cache/store.go:Get", "pkg/object/uid.go:RemoveUID", "pkg/object/object.go:DeepCopy", "pkg/pipeline/pipeline.go:Evaluate"]}
{"id": "C124", "title": "What a pipeline emits can be changed by whoever gets it", "statement": "A call of Evaluate writes to nothing that existed before the call. The objects it emits are new: they share nothing with each other, with the source cache, the operators of the graph or the target cache, nor with anything the caller could reach before. So whatever the rest of the program does between calls to objects it has given to the pipeline and to objects it got from it, the pipeline emits what it would emit if objects were values.", "quantifier": "all memories, all pipelines, all target caches, all sequences of deltas of all types, all orders in which maps are visited, all changes in between to memory the pipeline does not hold", "why_tests_cant": "the target cache, the deltas and the documents of the answer are three representations of one object; whether two of them are one in memory shows only if somebody writes to one and the other is used later", "anchors": ["pkg/pipeline/zset_adaptor.go:ConvertZSetToDelta", "pkg/pipeline/zset_adaptor.go:Reconcile", "pkg/object/object.go:SetContent", "pkg/dbsp/zset.go:List", "pkg/cache/store.go:Add", "pkg/cache/store.go:Delete", "pkg/cache/store.go:Get", "pkg/pipeline/pipeline.go:Evaluate"]}
{"id": "C125", "title": "Sync shares no memory with anybody", "statement": "A call of Sync writes to nothing that existed before the call. The objects it emits are new: they share nothing with each other, with the caches, the two graphs of the pipeline, nor with anything the caller could reach before. So whatever the rest of the program does between calls of Evaluate and Sync, in any order, to objects it has given to the pipeline and to objects it got from it, the pipeline emits what it would emit if objects were values.", "quantifier": "all memories, all pipelines, all caches, all sequences of calls of Evaluate and Sync, all orders in which maps are visited, all changes in between to memory the pipeline does not hold", "why_tests_cant": "the snapshot graph is made from the operators of the incremental graph and fed from the caches; whether something is one in memory shows only after a further call of the other kind", "anchors": ["pkg/pipeline/pipeline.go:Sync", "pkg/pipeline/pipeline.go:Evaluate", "pkg/cache/store.go:List", "pkg/dbsp/graph_converter.go:ToSnapshotGraph", "pkg/dbsp/zset.go:Subtract", "pkg/pipeline/zset_adaptor.go:ConvertZSetToDelta", "pkg/pipeline/zset_adaptor.go:Reconcile"]}
