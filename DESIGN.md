# Formal model of artigraph in Lean 4: design

## Trusted base

* Lean 4.33.0's kernel. No axioms are added; every theorem depends on at most
  `propext`, `Classical.choice` and `Quot.sound`. No `sorry`, `admit`,
  `native_decide` or `bv_decide`.
* The correspondence between `/repo/src/arti` and the definitions under
  `lean/Verif/Model`. It is a reading, function by function: each definition cites
  the lines it models and says where it simplifies.
* Third-party behaviour that the code calls and that is modelled from its
  documentation, not from source (none is installed here): `string.Formatter`,
  `str.format`, the `parse` library (lazy regular-expression groups), `glob`,
  `graphlib.TopologicalSorter`, `json`, pydantic validation and serialisation,
  `farmhash`, `hashlib.sha256`, `pyarrow`, `google-cloud-bigquery` (its
  `SchemaField` and `Table` as records of the properties the code sets and reads).
  Hash functions are arbitrary functions;
  theorems that need collision freedom say so in a hypothesis restricted to the
  values that occur.
* User code (`build`, `map`, `validate_outputs`) is an arbitrary deterministic
  function that may raise.

## Layout

* `Verif/Model/*`: the model (definitions only).
* `Verif/Spec/*`: small independent specifications used in statements.
* `Verif/Lemmas/*`: helper lemmas.
* `Verif/Props/*`: property theorems, named by property, each with an `example`
  that meets its hypotheses on a concrete case.

Conventions: strings are `List Char`; dicts are insertion-ordered association
lists; exceptions are `Except` values; stateful code returns the state next to
the `Except`, so partial effects of failing calls are visible; crashes are a
budget of atomic effects after which every effect raises.

Writing a file is one effect in `Model/World.lean`, on which most theorems about builds rest. The
code opens the file and writes it in pieces. `Model/Torn.lean` has these steps; the two models
are related by a simulation proved in `Lemmas/Torn.lean`. So the theorems about builds and crashes
hold of the code for histories in which no write of a file was cut off (or in which torn files were
deleted at once); for the others see C67, which is violated.

## Modelled / not modelled

Modelled: fingerprints and the int64/uint64 types, frozendict, TypedBox,
register/ordinal/one_or_none, artifact views and references, version fingerprints, model serialisation for
fingerprints, partition fields, storage templates (format, strip, wildcard,
parse, resolve, generate, discover), literal and local file storage, the memory
backend, producers (class validation, construction, dependencies, out and how outputs are
bound), graphs (lifecycle,
dependencies, producer outputs, read, write, snapshot, tags), the local executor,
artifact construction (validators, merging of class defaults, how storages are visited),
io.read/io.write, the TypeSystem dispatcher, the Python, PyArrow, BigQuery, NumPy,
pandas and pydantic adapters, lenient_issubclass, the declaration of model, partition field and
storage classes with one base each, the `producer` decorator, `wrap_exc`, `get_class_type_vars`, calls with an explicit
connection to another backend. Dates are those of the proleptic Gregorian calendar from year 1 to
year 9999 (`Model` checks them, `Spec/Calendar.lean` states them independently). The facts used about
pydantic by the model of the decorator: a value without a hint that overrides a field of a base
raises, names with a leading underscore are private attributes, an existing class attribute becomes
the default of a field of that name, and the values of fields hide functions of the class. The facts
used about CPython's `typing`: which objects
`get_origin`/`get_args` return, that `Optional[...]` and `Literal[...]` objects are
cached (equal subscripts are the same object), that `issubclass` raises for second
arguments that are not classes, that `TypedDict` turns `None` annotations into
`type(None)`.

Not modelled: placeholders in the bucket of a `GCSFile`, generic pydantic models, logging, builds by
threads that share a backend (the calls of such threads are modelled, see C74, and processes that share files, see C68),
pickling/copying, `statistics`/`thresholds` (empty shells in the code), docs,
what importing a module does (that `import_submodules` finds all modules is C73; that they register functions
is in C70), the tables inside `multimethod`.

## Plan per property

* **C01** Fingerprint combination is an order-free 64-bit XOR that never raises. Python-int XOR on Int, `int64.__new__` check after each step; prove closure, permutation invariance, equality with BitVec 64 xor.
* **C02** int64/uint64 conversion is the two's-complement bijection with an exact error domain. `int64.__new__`/`uint64.__new__` branch by branch on tagged ints; omega/Int.emod arithmetic.
* **C03** int64/uint64 arithmetic never silently wraps. Model/Ints, Model/IntOps: the operators, reflected operators, `round` and the operators left to `int`, dispatched as Python does; Spec/Arith says what each operator computes (floor quotients, bits in two's complement) without the model. Bitwise closure from Nat.xor/and/or bounds.
* **C04** A partition's input fingerprint depends only on producer identity, version and input contents. compute_input_fingerprint over abstract hashes; XOR permutation and cancellation.
* **C05** Different build inputs yield different input fingerprints. Violated: concrete witness for swapped and for equal contents; partial theorem for one input partition.
* **C06** Input names are checked before fingerprinting, and the default map always passes the check. Name check of `computeInputFingerprint` proved as an iff. Class validation (`Model/ProducerClass.lean`) is modelled with type hints as an arbitrary type and single inheritance; the default map is proved to pass the check for classes whose ancestors are abstract. Violated for classes that inherit the generated map of a concrete class (`hasattr(cls, \"map\")` finds it, so it is not regenerated).
* **C07** A SemVer with positive major is fingerprinted by its major alone. `SemVer.model_post_init` narrows the field names of the instance; the documents of all pairs of `SemVer`s are computed and compared (iff).
* **C08** Model fingerprints see exactly the non-skipped content. `Model/Json` (writer and reader; `loads (write j) = j` for both layouts) and `Model/ModelDoc` (values, field flags, the serialiser). Same document iff `Spec.Agree`, for all nested values: this gives the independence of skipped and excluded fields and of declaration order, and injectivity up to the kinds JSON does not distinguish; the strict form for declared types without `Any`. Violated in `Any` fields: strings/dates, tuples/frozensets, mappings with the key `_arti_type_`.
* **C09** Equal models have equal fingerprints. Violated four ways: mapping order (all permutations of all `Struct`s), iteration order and `True`/`1` in `Enum.items`, `Timestamp` versions in different timezones, and cached fingerprints kept by `model_copy`. Partial theorem for the remaining values.
* **C10** frozendict equality and hash ignore insertion order and agree with each other. Association lists; order-insensitive equality; hash as any permutation-invariant function of the items.
* **C11** In a | b the right operand wins on shared keys. `__or__`/`__ror__`; witness for dict | frozendict.
* **C12** A closed TypedBox never changes. TypedBox as a tree with operations returning (tree, result); induction over operation lists.
* **C13** TypedBox values are write-once. Invariant over operation lists: walk entries persist.
* **C14** TypedBox read-after-write and frame. Path lemmas on the tree.
* **C15** TypedBox.walk enumerates each value once under a key that looks it up. Induction over the tree; invariant: stored keys contain no dot.
* **C16** Membership tests on a TypedBox have no effect and agree with lookups. Membership is a pure function; relate to lookup.
* **C17** A failed TypedBox assignment leaves the stored values unchanged. Single values: walk unchanged on error; witness for mappings.
* **C18** Partial formatting substitutes known placeholders and preserves the others. Templates are token lists with a printer (`Spec/Template`); `parse (print T) = T`; formatting is substitution on tokens, formatting twice is formatting with the union. Index `[007]` is printed back as `[7]` (witness).
* **C19** Storage resolution does not depend on the order of resolution. Resolution characterised on tokens (drop empty placeholders with their separator, substitute the rest), shown to commute; all permutations of the five resolutions. Witnesses outside the class: a partition key called `name`, repeated empty placeholders, values that bring separators.
* **C20** Distinct partitions never share a storage location. Unique decoding of delimited templates; components identify the field value (C24).
* **C21** What was written is discovered, with the key and fingerprint it was written with. Lazy matcher recovers the rendered values; glob accepts the rendered path.
* **C22** Discovery restores each partition field with its own class. All fields get the class of the last parsed component (general theorem); witness of the violation; partial for one declared class.
* **C23** The default template of a partitioned artifact can be discovered. Violated: for every resolved template with a date key the wildcard raises (general theorem over templates, names and files). Partial: with one field class that is not dates, the default template resolves to a discoverable template, so C21 applies.
* **C24** Partition field components round-trip. Decimal/hex/date printers and parsers, round trip by induction.
* **C25** generate_partition accepts exactly matching keys and fingerprints. Fingerprint half for all storages; emptiness of keys and existence of mentioned components; acceptance of conforming keys; witnesses for surplus names and wrong classes.
* **C26** String literal discovery. Branches of discover_partitions; a value with braces is formatted like a template (witness), so the case of a set value is proved for brace-free values.
* **C27** Producers are executed after everything they depend on. Kahn's algorithm; topological-order predicate stated independently.
* **C28** Graphs built through the API are acyclic. API session with creation ranks; acyclicity by rank.
* **C29** Snapshot ids identify graph and raw contents. XOR permutation invariance and cancellation.
* **C30** Snapshotting is all-or-nothing and records exactly the raw partitions. from_graph as a state transformer.
* **C31** Only sealed graphs can be used and only one graph can be open. Invariant over all histories of one thread with any number of graph objects (create, enter, leave, box operations, read, write, build, snapshot, dependencies, methods of snapshots). Snapshots check nothing themselves: tagging a snapshot of a graph that was opened again succeeds (`C31_reopened_graphs_can_be_tagged`), all other uses are covered.
* **C32** Dependencies reflect the graph's artifacts. Violated by re-entering: the cached properties never change once a graph has been left (`C32_violated_dependencies_never_change`, for all histories; `C32_violated_by_reentering` is a concrete one in which an artifact is missing). Partial: graphs entered at most once.
* **C33** Tags are write-once unless overwritten, and reads return the last accepted write. Refinement to a partial map over histories.
* **C34** Backend artifact partitions behave as an append-only set per storage. Refinement to sets over histories.
* **C35** Snapshot partition links are isolated and append-only. Refinement to sets over histories.
* **C36** Existing output on disk is reused. Violated: witness history; partial for the first read.
* **C37** Nothing is written for outputs that fail validation. Error branches of build_producer_partition leave the state unchanged; the invariant Reach.sound for every history.
* **C38** Building an already built snapshot runs no producer. Second run: every key is found, so no effect.
* **C39** A successful build links every mapped partition. Induction over the order and the map entries.
* **C40** A build interrupted anywhere can be resumed. Crash budget; witness for two outputs; partial for one output.
* **C41** A build links no stale partitions. Witness for the empty map; partial for non-empty maps.
* **C42** Incremental builds compute what a clean build would. Invariant over histories: every stored produced partition holds the value its inputs determine. For producers with several outputs a weaker link relation (LinkLog) in any history: what is linked is right. In histories that do not separate the outputs of a producer (Spec/Together.lean) a further invariant (Whole, Lemmas/Together.lean): what is known or on file of one output is of all; hence completeness (Lemmas/Calm.lean, Props/Together.lean). Witnesses for the histories that separate them.
* **C43** Two runs in states that agree on the inputs and outputs of a producer do the same for it (par_buildProducer); what belongs to other producers is left alone (Off); induction over the prefixes of the second order against the run in the first order. For producers with one output also from the functional characterisation of C42.
* **C44** Reading a snapshot returns the data of that snapshot. Witnesses for raw artifacts and for two outputs; partial for produced ones.
* **C45** Each build output is written to the artifact at its position. Witness for a subset of outputs; partial when all outputs are placed.
* **C46** io.read and io.write guard partition counts and types. Branches of io.read.
* **C47** Type conversion picks the highest-priority matching adapter. Stable sort by priority; the winner characterised without sorting (`Spec.Winner`). "Raise iff none matches" is false for nested types; proved for adapters that do not raise.
* **C48** Python type hints round-trip up to the documented widening. Adapters of `types/python.py` in both directions (`Model/PythonTypes`), independent `Spec.Supported`, `Spec.widen` and `Spec.Widened`; strong induction over nested types. Violated outside `Supported`: nullable `Null` and structs with `Null` fields (`type(None)` has no type), enums whose items are of a subclass of the enum's class.
* **C49** PyArrow types round-trip. Adapters of `types/pyarrow.py` in both directions (`Model/ArrowTypes`; collection metadata through the JSON model), independent `Spec.arrowForget`; strong induction over nested types. Violated for geographies and `byte_size=-1`.
* **C50** lenient_issubclass is a sound order on hints. Hints as a nested inductive over an arbitrary class hierarchy (`Model/Hints`); reflexivity and transitivity for all class hints in one heap (identities determine objects). Violated for `Annotated` unions on the right and for unions among generic arguments (compared by identity).
* **C51** Registration order does not decide which handler wins. Fold of register; maximum characterisation.
* **C52** Model/Literals: annotation_from_value, json.dumps/loads, cast, the five resolutions of the literal's id and value on assignment, discovery and reading (composed from the Json, Format, Resolve, Storage and PythonTypes models). Proved: which values can be cast, which read back, that only those do, that a mapping never reads back, and that the text survives exactly if it has no braces (a count of braces decreases over every formatting pass).
* **C53** Accepted producer classes are self-consistent. Inversion of the validation for arbitrary (inherited) attributes. Violated in two corners: an inherited generated map hides the check for partitioned outputs; `cls`/`self` parameters of static methods are dropped from the signature. Partial theorem for classes whose ancestors are abstract.
* **C54** The serialised form of a TypedBox does not depend on assignment order. Items sorted by key; permutation of walks.
* **C55** Model `get_class_for`, `_get_kwargs_from_annotation`, `from_annotation`, the two compatibility checks, type equality, and the view selection of `Graph.read`/`Graph.write` (`Model/Views.lean`), over arbitrary registries; instantiate with the views of `views/python.py`. Prove exact characterisations; prove by induction on the type that usual hints work, and the violations for nullable artifacts, `None` and lists of `TypedDict`s in general.
* **C56** Model/Lifecycle (programs over graphs) and Model/TypedBox; the contents of a graph grow only by values of assignments cast at their path (Lemmas/BoxContents), the cast puts in the placeholder values (Lemmas/Placement); invariant over programs of with blocks. Constructor artifacts violate it (witnesses).
* **C57** Model/Storage with indexes: the wildcard has the text, the parse library's names base[index] and their expansion. Proved by reduction to the template without indexes: renaming the fields of the match, and counting delimiters to show that wildcards cannot match across them. Witnesses for values other than the hard-coded one and for a component that is hard-coded in one place only.
* **C58** Model/Out.lean models calling a producer class, out, __iter__ and Artifact.cast of producers over the artifacts of Model/Graph and the views of Model/Views. The acceptance conditions are proved as equivalences by induction over the fields and the outputs; C45 then applies to the outputs of one call.
* **C59** Spec/Layout writes the default path out segment by segment. Lemmas/Layout renders the resolved default template; Props/Layout proves that it equals the specified path (C59_default_location) and that equal paths have equal parts (C59_same_file_same_artifact_partial), by splitting at separators and then by the shape of the segments. Five witnesses show that it fails for graph names and keys with separators, keys with = and integer keys.
* **C60** Model/BigQuery has the adapters of bigquery.py for both directions over the TypeSystem model, with SchemaField and Table as data. Proved by induction on types: exact domain of to_system, the columns of a table, the round trip up to bqForget, identity on types BigQuery carries completely. Witnesses for list descriptions, nullable lists and repeated partition fields. Not covered: ids with a colon, collections nested in structs.
* **C61** model the validators of `Artifact` in the order pydantic runs them (`Model/Construct`) with `types_from`, `_visit_type`, `_visit_format`; the specification (`Spec/Construct`) says which key types a type has and how each template is resolved. Proved: exactly which artifacts are made and what they are, the errors of the others, that a storage stays as it is for the same type and format, and the location of every partition with the default template (composing with C59). False for annotations that are left out (those of the class twice) and for storages of an artifact of another type (all partitions share a file): both proved.
* **C62** model both type systems in both directions over a type of NumPy/pandas objects (classes, dtypes, arrays by shape, series, frames); prove by induction on types, shapes and column lists which are accepted, the exact objects, both round trips, and non-termination on duplicate column names; negations for series of bytes and mixed object series.
* **C63** Pydantic models round-trip. The adapter for structs on top of the Python system, with a table of model classes (name, annotations, which class create_model makes); round trips by induction on the size of the type, circular models by induction on the recursion limit; the table is shown to exist by coding hints as trees.
* **C64** Partitions in Google Cloud Storage. A bucket without placeholders is a constant prefix of the template, so generation and parsing reduce to those of C20/C21 for the template `bucket/path`; gcsfs' glob over objects and pseudo directories is modelled from its documentation. Violated by objects below a path of the template's form, and by the default path's dot.
* **C65** Builds over the paths of the file system. `Model/Disk.lean` instantiates the naming scheme that `Model/World.lean` leaves open with the templates, globs and parsers of `Model/Storage.lean`; generation and discovery are shown to be those of local files, and the conditions of C40/C42 on names (no clash, apart) are proved from conditions on templates and files (`Spec/Disk.lean`). So C40 and C42 hold over real paths.
* **C66** A repeated build reuses what is stored. By induction over the executor's order: the evaluated partitions of each producer are known to the backend or found in the files (`Finds`, proved for local files from the layout), so `existing` covers everything that is mapped; evaluation only depends on raw data (`evalArt_congr`); files and knowledge survive events by induction over histories.
* **C67** Output that was written only in part is not taken for a result. `Model/Torn.lean`: open empties the file, the serialised pieces are appended one effect at a time, and `dump` may raise after any of them; a ghost log of torn paths. Violated by two concrete histories (interruption, failed serialisation). A simulation relation between code that writes piece by piece and code that writes at once, closed under bind, gives: histories without torn files are histories of `Model/World.lean` with other budgets, and so are histories in which torn files are deleted at once.
* **C68** Processes that build at the same time do not corrupt each other's results. `Model/Par.lean`: the functions of `Model/World.lean` as programs in which each access to the shared files is a step; a system is the files, the processes and a ghost log of producer calls; any process may step, start or be interrupted at any time. Violated by a concrete schedule for files written in place. With files that appear with their content: a rely/guarantee logic (`Lemmas/ParLogic.lean`) shows that each process only adds correct files and relies on the others doing the same; from that, each build that succeeds is the evaluation of the graph, whatever the others do. Also: a process alone is the sequential model, and every process finishes under any fair schedule. Missing: producers with several outputs, builds by threads that share a backend.
* **C69** Reading from a graph without a snapshot returns current data. `Model/Io.lean` (`graphRead`) over `Model/World.lean`; raw reads are the discovered partitions, read-back over the model of local files; produced reads use the invariants of reachable states (as C42, C44): every link of the snapshot of the current raw data is an evaluated output. Violated for interrupted builds and for literals, with witnesses. Missing: producers with several outputs.
* **C70** The function for a read or a write is determined by classes alone. `Model/Dispatch.lean`: registration checks, the table with its cache, discovery and lookup; the selection of `multimethod` from its documentation (exact, closest by issubclass, position in the mro, error). Invariant: what is cached is what selection gives for the registered functions. Violated by discovery, by the order of parameters and by lists of classes, with witnesses.
* **C71** Modelled: the creation of classes with one base each (`Model.__pydantic_init_subclass__`, `Model.__new__`, `PartitionField.__pydantic_init_subclass__`, `components`, `register`, `get_class_for`) as a state machine over class bodies (`Model/ClassDecl.lean`). The specification (`Spec/ClassDecl.lean`) speaks of bodies and bases only (nearest definition). Proved by an invariant over all programs: a class is instantiated iff its own body is not marked abstract and no abstract method is left; the class found for a type is exactly the concrete subclass with that matching type, is unique and never changes; when declarations are accepted; default components exist. Witness: the format of a default component is not checked.
* **C72** Modelled: `Storage.__class_getitem__`, `Storage.__pydantic_init_subclass__`, the fields that `generate_partition` passes on and the checks that Pydantic makes of keyword arguments (`Model/ClassDecl.lean`); annotations and validation are abstract. Proved from the same invariant: accepted concrete classes have the fields of their partition class (iff), and generating a partition then succeeds with exactly these fields. Witness: a storage class without a partition class.
* **C73** All modules of a package are imported. Model/Modules: directories as finite trees, the walk and the name filter of find_namespace_packages, the entries that pkgutil.iter_modules yields (from its source in CPython), the dictionary of directories and names, the imports in order. Mutual induction over trees; package names and paths are inverse by splitting at dots.
* **C74** Threads can share a backend. `Model/Threads.lean`: all methods of a memory connection as programs on a heap of dictionaries and sets; each lookup, each new entry, each element added to a set is a step, and any thread may step at any time. A rely/guarantee predicate (`Lemmas/Threads.lean`) shows that each step keeps the shape of the heap and only adds what the log of calls accounts for; an invariant over all schedules (`Lemmas/ThreadSys.lean`) gives the claims for each call that returned. Violated where a storage, an artifact of a snapshot or a graph is used for the first time by two threads (`defaultdict.__missing__` replaces the entry of the other thread), by tags set at the same time, and by a write during a filtered read (`RuntimeError`); proved for everything the backend knows when the threads are started. Missing: builds by threads.
* **C75** Model/Decorator: the namespace that is passed to type(...), what pydantic makes of it (fields, defaults from attributes, overridden fields without hints), the class checks of Model/ProducerClass, the nonlocal name. The checks of a class are shown to be equivalences (Lemmas/Decorator), so that acceptance is an iff against Spec/Decorator. Violated by a second use of the decorator, empty annotations and parameters called map.
* **C76** Model/TypedBox: every path operation goes through _get_leaf_and_key. Shown by induction over the key parts that the operation at the end of a path with a private part is never reached; lifted to all reachable boxes with C15.
* **C77** Model/WrapExc: exceptions with class, message, wrapped flag and cause; the except clause; nested blocks as a fold. Induction over the blocks. Violated for classes whose str is not their message (KeyError) and for user errors with a wrapped attribute: both with witnesses.
* **C78** A world with two backends over the same files (Model/Connection.lean); every call that takes a connection is run on the backend it names, line by line. Proved by induction over sequences of calls against the one-backend model; the reads without a snapshot by a frame lemma: taking a snapshot never links partitions of produced artifacts. Counterexamples for read and build.
* **C79** Class declarations as a chain (Model/TypeVars.lean): a class with or without parameters, over a class with or without arguments. The specification (Spec/TypeVars.lean) substitutes arguments for parameters along the chain; induction over the chain. Counterexamples: exchanged, partly bound and nested parameters.
* **C80** Model/BoxHash.lean: Mapping.__eq__ as the comparison of nested dicts, frozenset hashes as an XOR of item hashes. Induction over well-formed nodes (all boxes that programs reach are): equality iff lookups agree along every path; permutation of items gives equal hashes. Counterexample: lookups of missing keys in open boxes.
