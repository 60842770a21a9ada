{"id": "C01", "title": "Fingerprint combination is an order-free 64-bit XOR that never raises", "statement": "For every list of fingerprints, Fingerprint.combine returns a fingerprint in the int64 range without raising, equals the 64-bit two's-complement XOR of the keys, does not depend on the order or grouping of the arguments, has Fingerprint.identity as neutral element, and cancels a fingerprint combined with itself.", "quantifier": "all fingerprints (all int64 values), all finite argument lists, all permutations of them", "why_tests_cant": "The argument lists and 2^64 key values cannot be enumerated; tests check three literals.", "anchors": ["src/arti/fingerprints/__init__.py:Fingerprint.combine", "src/arti/fingerprints/__init__.py:Fingerprint.identity", "src/arti/internal/utils.py:int64", "src/arti/internal/utils.py:_int.__xor__"]}
{"id": "C02", "title": "int64/uint64 conversion is the two's-complement bijection with an exact error domain", "statement": "int64(x) and uint64(x) succeed exactly on the documented inputs: a plain int iff it is in range, any uint64 (resp. int64) always; a converted value is congruent to the original modulo 2^64; int64(uint64(x)) == x and uint64(int64(y)) == y for every in-range x, y.", "quantifier": "all integers and all int64/uint64 values", "why_tests_cant": "2^64 values and unbounded integers; off-by-one at the boundaries is invisible to sampled tests.", "anchors": ["src/arti/internal/utils.py:int64.__new__", "src/arti/internal/utils.py:uint64.__new__", "src/arti/fingerprints/__init__.py:Fingerprint.from_string"]}
{"id": "C03", "title": "int64/uint64 arithmetic never silently wraps", "statement": "Every arithmetic operator with an int64/uint64 operand, on either side, either returns the exact integer result, as a value of the class of the first such operand and in its range, or raises; the bitwise operators &, |, ^ on int64 operands and ~ and >> on int64 never raise. EXPECTED; violated by the operators inherited from int (**, abs, divmod): their exact results are plain ints, which may be out of range. Holds for + - * // % << >> & | ^, the unary operators, round, ceil, floor and trunc.", "quantifier": "all operand pairs of the types, on either side, all operators", "why_tests_cant": "Overflow behaviour depends on all 2^128 operand pairs.", "anchors": ["src/arti/internal/utils.py:_int"]}
{"id": "C04", "title": "A partition's input fingerprint depends only on producer identity, version and input contents", "statement": "Producer.compute_input_fingerprint returns the same value whenever the producer class key, the version fingerprint and the multiset of input content fingerprints agree: it does not depend on partition order, on argument order or on where the inputs are stored. Replacing the content fingerprint of exactly one input partition by a different one always changes the result.", "quantifier": "all producers, all dependency partitions, all orders, all single-content changes", "why_tests_cant": "Quantifies over all input sets and all content changes.", "anchors": ["src/arti/producers/__init__.py:Producer.compute_input_fingerprint"]}
{"id": "C05", "title": "Different build inputs yield different input fingerprints", "statement": "If two dependency assignments of the same producer differ in the content of some argument, the computed input fingerprints differ (up to collisions of the content hash), so a stale output is never taken for current. EXPECTED; the code violates it for producers with two or more input partitions, because contents are XOR-ed without their argument name: swapped arguments and pairs of equal contents are indistinguishable.", "quantifier": "all producers, all pairs of dependency assignments", "why_tests_cant": "A statement about all pairs of inputs; tests only compare a few.", "anchors": ["src/arti/producers/__init__.py:Producer.compute_input_fingerprint", "src/arti/fingerprints/__init__.py:Fingerprint.combine"]}
{"id": "C06", "title": "Input names are checked before fingerprinting, and the default map always passes the check", "statement": "compute_input_fingerprint raises exactly when the set of names in the dependency mapping differs from the producer's build inputs; for every accepted producer class that keeps the default map, compute_dependencies never raises that error and yields exactly one NotPartitioned entry.", "quantifier": "all producer classes, all map results", "why_tests_cant": "Needs all signatures and all map results.", "anchors": ["src/arti/producers/__init__.py:Producer.compute_input_fingerprint", "src/arti/producers/__init__.py:Producer.compute_dependencies", "src/arti/producers/__init__.py:Producer._validate_map_sig"]}
{"id": "C07", "title": "A SemVer with positive major is fingerprinted by its major alone", "statement": "For major > 0, two SemVers have the same fingerprint document iff their majors are equal, whatever minor and patch; otherwise iff all three components are equal.", "quantifier": "all pairs of SemVer values", "why_tests_cant": "All integer triples.", "anchors": ["src/arti/versions/__init__.py:SemVer"]}
{"id": "C08", "title": "Model fingerprints see exactly the non-skipped content", "statement": "The document hashed for a model is unchanged by any change to fields marked SkipFingerprint or excluded, and by the declaration order of fields; two models with the same document agree on class key and on every remaining field (the serialisation is injective), so a fingerprint collision can only come from the 64-bit hash.", "quantifier": "all models, all field values, nested to any depth", "why_tests_cant": "Nested values of unbounded depth; injectivity is a statement about pairs.", "anchors": ["src/arti/internal/models.py:Model.fingerprint", "src/arti/internal/models.py:Model._arti_fingerprint_fields_", "src/arti/fingerprints/__init__.py:SkipFingerprint"]}
{"id": "C09", "title": "Equal models have equal fingerprints", "statement": "If a == b for two models then a.fingerprint == b.fingerprint. EXPECTED; the code violates it: mapping fields compare order-insensitively but are serialised in insertion order.", "quantifier": "all pairs of models", "why_tests_cant": "A statement about pairs of values of unbounded size.", "anchors": ["src/arti/internal/models.py:Model.fingerprint", "src/arti/internal/mappings.py:frozendict", "src/arti/types/__init__.py:Struct"]}
{"id": "C10", "title": "frozendict equality and hash ignore insertion order and agree with each other", "statement": "Two frozendicts are equal iff they have the same keys with equal values; equal ones have equal hashes; lookup returns the last value given for a key at construction.", "quantifier": "all finite sequences of key/value pairs", "why_tests_cant": "All sequences and permutations.", "anchors": ["src/arti/internal/mappings.py:frozendict"]}
{"id": "C11", "title": "In a | b the right operand wins on shared keys", "statement": "For frozendict | mapping and mapping | frozendict, the result has the union of the keys, and on shared keys the value of the right operand, as for dict. EXPECTED; dict | frozendict violates it: the left operand wins.", "quantifier": "all pairs of mappings", "why_tests_cant": "All pairs of mappings with overlapping keys.", "anchors": ["src/arti/internal/mappings.py:frozendict.__or__", "src/arti/internal/mappings.py:frozendict.__ror__"]}
{"id": "C12", "title": "A closed TypedBox never changes", "statement": "After a TypedBox (for example Graph.artifacts) is closed, no sequence of reads, membership tests, attribute or item assignments and nested assignments changes its contents; every assignment raises.", "quantifier": "all boxes, all finite sequences of operations", "why_tests_cant": "All operation sequences.", "anchors": ["src/arti/internal/mappings.py:TypedBox.__setitem__", "src/arti/internal/mappings.py:TypedBox.__getitem__"]}
{"id": "C13", "title": "TypedBox values are write-once", "statement": "Once a key holds a value, no later sequence of operations, successful or failing, changes or removes it.", "quantifier": "all boxes, all finite operation sequences, including failing ones and mapping merges", "why_tests_cant": "All histories.", "anchors": ["src/arti/internal/mappings.py:TypedBox.__setitem__"]}
{"id": "C14", "title": "TypedBox read-after-write and frame", "statement": "After a successful box[key] = value with a non-mapping value, box[key] returns the cast value, and every other key has exactly the value it had before.", "quantifier": "all boxes, keys (dotted, any depth) and values", "why_tests_cant": "All keys of all depths and all boxes.", "anchors": ["src/arti/internal/mappings.py:TypedBox.__setitem__", "src/arti/internal/mappings.py:TypedBox.__getitem__", "src/arti/internal/mappings.py:TypedBox.walk"]}
{"id": "C15", "title": "TypedBox.walk enumerates each value once under a key that looks it up", "statement": "walk() yields pairwise distinct dotted keys, looking up each yielded key returns the yielded value, and every value reachable by a key lookup is yielded.", "quantifier": "all boxes constructible by any operation sequence", "why_tests_cant": "All tree shapes.", "anchors": ["src/arti/internal/mappings.py:TypedBox.walk", "src/arti/internal/mappings.py:TypedBox._get_leaf_and_key"]}
{"id": "C16", "title": "Membership tests on a TypedBox have no effect and agree with lookups", "statement": "`key in box` never changes the box; it is True iff looking the key up finds an existing entry rather than creating one.", "quantifier": "all boxes, all keys", "why_tests_cant": "All boxes and keys.", "anchors": ["src/arti/internal/mappings.py:TypedBox.__contains__"]}
{"id": "C17", "title": "A failed TypedBox assignment leaves the stored values unchanged", "statement": "If box[key] = value raises, walk() yields the same values as before. EXPECTED; holds for single values, violated for mapping values, which are merged item by item and may be half applied.", "quantifier": "all boxes, keys, values", "why_tests_cant": "All failure points.", "anchors": ["src/arti/internal/mappings.py:TypedBox.__setitem__"]}
{"id": "C18", "title": "Partial formatting substitutes known placeholders and preserves the others", "statement": "Formatting a storage template with some placeholders leaves every other placeholder textually intact (attribute, index and format spec included), and formatting twice with disjoint sets equals formatting once with their union.", "quantifier": "all templates without brace escapes or conversions, all substitutions", "why_tests_cant": "All template strings.", "anchors": ["src/arti/storage/_internal.py:partial_format", "src/arti/storage/_internal.py:FormatPlaceholder"]}
{"id": "C19", "title": "Storage resolution does not depend on the order of resolution", "statement": "Resolving a storage with names, graph, format extension and partition-key spec gives the same template whichever is resolved first. ", "quantifier": "all templates in a stated class, all values, both orders", "why_tests_cant": "All templates and values.", "anchors": ["src/arti/storage/__init__.py:Storage.resolve", "src/arti/storage/__init__.py:Storage._resolve_field"]}
{"id": "C20", "title": "Distinct partitions never share a storage location", "statement": "For a template in which every placeholder is delimited by text that cannot occur in a rendered component and every key has an identifying component, generate_partition maps different (partition key, input fingerprint) pairs to different locations.", "quantifier": "all such templates, all pairs of keys and fingerprints", "why_tests_cant": "Injectivity over all pairs of keys.", "anchors": ["src/arti/storage/__init__.py:Storage.generate_partition", "src/arti/partitions/__init__.py:PartitionField"]}
{"id": "C21", "title": "What was written is discovered, with the key and fingerprint it was written with", "statement": "For a local file storage whose partition keys all have one field class, where every file whose path has the form of the template belongs to a partition and no directory has such a path, discover_partitions returns exactly the partitions whose files exist, each with the partition key and input fingerprint that generated its path, filtered by the requested fingerprints. Other files and directories do not matter.", "quantifier": "all delimited templates, all sets of written partitions, other files and directories, all filters", "why_tests_cant": "All sets of files and all templates.", "anchors": ["src/arti/storage/local.py:LocalFile.discover_partitions", "src/arti/storage/_internal.py:parse_spec", "src/arti/storage/_internal.py:extract_placeholders", "src/arti/storage/_internal.py:spec_to_wildcard"]}
{"id": "C22", "title": "Discovery restores each partition field with its own class", "statement": "Discovered partition keys use, for every key, the field class declared for that key. EXPECTED; violated when the keys of one artifact have different field classes: every field is parsed with the class of the last placeholder.", "quantifier": "all key-type assignments, all templates, all paths", "why_tests_cant": "All combinations of key types.", "anchors": ["src/arti/storage/_internal.py:extract_placeholders"]}
{"id": "C23", "title": "The default template of a partitioned artifact can be discovered", "statement": "For every artifact with default storage template, discovering partitions does not raise. EXPECTED; violated for every date-partitioned artifact: the default component m:02 carries a format spec that the wildcard placeholder rejects.", "quantifier": "all partition key types", "why_tests_cant": "All key type maps.", "anchors": ["src/arti/storage/_internal.py:WildcardPlaceholder", "src/arti/partitions/__init__.py:DateField", "src/arti/storage/__init__.py:Storage._visit_type"]}
{"id": "C24", "title": "Partition field components round-trip", "statement": "For every field value, parsing its rendered components gives back the value: ints through value and hex, dates through Y/m/d, iso and value, null through value; every other set of component names is rejected.", "quantifier": "all integers, all calendar dates, all component sets", "why_tests_cant": "All integers and dates.", "anchors": ["src/arti/partitions/__init__.py:DateField.from_components", "src/arti/partitions/__init__.py:_IntField.from_components", "src/arti/partitions/__init__.py:NullField.from_components"]}
{"id": "C25", "title": "generate_partition accepts exactly matching keys and fingerprints", "statement": "generate_partition succeeds only if the partition key has exactly the storage's key names with the declared classes, and an input fingerprint is given iff the template has the {input_fingerprint} placeholder. EXPECTED; the fingerprint half holds, the key half is violated: only emptiness is compared, so surplus names and wrong field classes are accepted.", "quantifier": "all storages, keys and fingerprints", "why_tests_cant": "All combinations of templates, keys and fingerprints.", "anchors": ["src/arti/storage/__init__.py:Storage.generate_partition", "src/arti/storage/__init__.py:Storage._check_key"]}
{"id": "C26", "title": "String literal discovery", "statement": "StringLiteral.discover_partitions returns no partition for an unset value, one NotPartitioned partition for a set value without fingerprints, and refuses fingerprints for a set value and partitioned literals without fingerprints.", "quantifier": "all literals and all fingerprint filters", "why_tests_cant": "All inputs.", "anchors": ["src/arti/storage/literal.py:StringLiteral.discover_partitions"]}
{"id": "C27", "title": "Producers are executed after everything they depend on", "statement": "The build order contains every artifact and producer of the graph exactly once, each one after all its dependencies; the order exists iff the dependency relation is acyclic, and otherwise closing the graph raises.", "quantifier": "all dependency graphs", "why_tests_cant": "All graphs of any size.", "anchors": ["src/arti/graphs/__init__.py:Graph.dependencies", "src/arti/graphs/__init__.py:Graph.__exit__", "src/arti/executors/local.py:LocalExecutor.build"]}
{"id": "C28", "title": "Graphs built through the API are acyclic", "statement": "Because artifacts and producers are immutable values whose inputs must exist first, the dependency map of every graph has a valid order; closing a graph never raises a cycle error.", "quantifier": "all graphs constructible through the API", "why_tests_cant": "All constructible graphs.", "anchors": ["src/arti/graphs/__init__.py:Graph.dependencies", "src/arti/producers/__init__.py:Producer.out"]}
{"id": "C29", "title": "Snapshot ids identify graph and raw contents", "statement": "The snapshot id depends only on the graph fingerprint and, per artifact key, on the contents discovered for it: it does not depend on the iteration order of artifacts or of discovered partitions, and changing the content of exactly one raw partition changes it.", "quantifier": "all graphs, all iteration orders, all single-content changes", "why_tests_cant": "All orders and contents.", "anchors": ["src/arti/graphs/__init__.py:GraphSnapshot.from_graph"]}
{"id": "C30", "title": "Snapshotting is all-or-nothing and records exactly the raw partitions", "statement": "If any raw artifact has no data, snapshot raises and the backend is unchanged; otherwise each raw artifact is linked in the new snapshot to exactly the partitions discovered for it.", "quantifier": "all graphs, all storage states", "why_tests_cant": "All states.", "anchors": ["src/arti/graphs/__init__.py:GraphSnapshot.from_graph"]}
{"id": "C31", "title": "Only sealed graphs can be used and only one graph can be open", "statement": "Reading, writing, building, tagging and snapshotting raise unless the graph has been defined and closed; entering a graph while another is open raises and leaves the open one open; leaving a graph always closes its artifact box and clears the context.", "quantifier": "all sequences of enter/leave/use over any number of graphs", "why_tests_cant": "All schedules.", "anchors": ["src/arti/graphs/__init__.py:requires_sealed", "src/arti/graphs/__init__.py:Graph.__enter__", "src/arti/graphs/__init__.py:Graph.__exit__"]}
{"id": "C32", "title": "Dependencies reflect the graph's artifacts", "statement": "After closing a graph, its dependencies cover every artifact it holds. EXPECTED; violated by re-entering a graph: the dependency map computed at the first close is cached and later artifacts are never built.", "quantifier": "all sequences of open/add/close", "why_tests_cant": "All histories.", "anchors": ["src/arti/graphs/__init__.py:Graph.dependencies", "src/arti/graphs/__init__.py:Graph.__exit__"]}
{"id": "C33", "title": "Tags are write-once unless overwritten, and reads return the last accepted write", "statement": "For every history of tag writes and reads, reading (name, tag) returns the snapshot of the last accepted write for that pair or raises if there is none; a write is refused iff the pair exists and overwrite is False; other pairs are unaffected.", "quantifier": "all histories of tag operations", "why_tests_cant": "All histories.", "anchors": ["src/arti/backends/memory.py:MemoryConnection.write_snapshot_tag", "src/arti/backends/memory.py:MemoryConnection.read_snapshot_tag"]}
{"id": "C34", "title": "Backend artifact partitions behave as an append-only set per storage", "statement": "Reading the partitions of an artifact returns exactly those ever written for its storage together with those discovered on the first read, restricted to the matching fingerprints; nothing is ever removed and other storages are unaffected.", "quantifier": "all histories of backend operations", "why_tests_cant": "All histories.", "anchors": ["src/arti/backends/memory.py:MemoryConnection.read_artifact_partitions", "src/arti/backends/memory.py:MemoryConnection.write_artifact_partitions"]}
{"id": "C35", "title": "Snapshot partition links are isolated and append-only", "statement": "The partitions linked to (snapshot, key) are exactly those written for that pair, in any history; no operation on another snapshot, key or storage changes them.", "quantifier": "all histories of backend operations", "why_tests_cant": "All histories.", "anchors": ["src/arti/backends/memory.py:MemoryConnection.write_snapshot_partitions", "src/arti/backends/memory.py:MemoryConnection.read_snapshot_partitions"]}
{"id": "C36", "title": "Existing output on disk is reused", "statement": "If output for a requested fingerprint exists in storage, reading the artifact partitions finds it. EXPECTED; violated after a first read with other fingerprints: the cache is warmed with the filtered result only.", "quantifier": "all histories, all storage states", "why_tests_cant": "All histories.", "anchors": ["src/arti/backends/memory.py:MemoryConnection.read_artifact_partitions"]}
{"id": "C37", "title": "Nothing is written for outputs that fail validation", "statement": "If validate_outputs rejects the outputs of a partition, or the number of outputs is wrong, the build raises and neither files nor backend are changed for that partition.", "quantifier": "all producers, all outputs, all states", "why_tests_cant": "All outputs and states.", "anchors": ["src/arti/executors/__init__.py:Executor.build_producer_partition"]}
{"id": "C38", "title": "Building an already built snapshot runs no producer", "statement": "After a successful build of a snapshot, building the same snapshot again calls no producer and changes neither files nor backend.", "quantifier": "all graphs, all states", "why_tests_cant": "All graphs.", "anchors": ["src/arti/executors/local.py:LocalExecutor.build", "src/arti/executors/__init__.py:Executor.discover_producer_partitions"]}
{"id": "C39", "title": "A successful build links every mapped partition", "statement": "After a successful build, for every producer and every partition key its map returned, the output of a single-output producer has a partition with that key and the computed input fingerprint linked to the snapshot.", "quantifier": "all graphs, producers, maps and states", "why_tests_cant": "All graphs.", "anchors": ["src/arti/executors/local.py:LocalExecutor.build", "src/arti/executors/__init__.py:Executor.build_producer_partition"]}
{"id": "C40", "title": "A build interrupted anywhere can be resumed", "statement": "If a build is interrupted after any number of storage or backend writes, running it again completes all partitions of all outputs. EXPECTED; holds for single-output producers, violated for several outputs: a partition counts as built as soon as any of its outputs exists. (Each storage or backend write counts as one step here; for interruptions in the middle of writing a file see C67.)", "quantifier": "all graphs, all interruption points", "why_tests_cant": "All crash points.", "anchors": ["src/arti/executors/__init__.py:Executor.discover_producer_partitions", "src/arti/executors/local.py:LocalExecutor.build"]}
{"id": "C41", "title": "A build links no stale partitions", "statement": "Every output partition linked to a snapshot by a build has a key returned by the producer's map and the input fingerprint computed for that key. EXPECTED; violated when map returns no partitions: the empty filter means no filter and all known partitions are linked.", "quantifier": "all graphs, maps and prior states", "why_tests_cant": "All prior states.", "anchors": ["src/arti/executors/__init__.py:Executor.discover_producer_partitions", "src/arti/backends/memory.py:MemoryConnection.read_artifact_partitions"]}
{"id": "C42", "title": "Incremental builds compute what a clean build would", "statement": "In any history of raw writes and builds, if input fingerprints do not collide on the inputs that occur, reading a produced artifact from a built snapshot returns the value obtained by evaluating the producers from scratch on the raw contents of that snapshot.", "quantifier": "all graphs, all histories of raw writes and builds", "why_tests_cant": "All histories.", "anchors": ["src/arti/executors/local.py:LocalExecutor.build", "src/arti/executors/__init__.py", "src/arti/graphs/__init__.py:Graph.read"]}
{"id": "C43", "title": "The result of a build does not depend on the scheduling order", "statement": "If nothing interrupts the executor and the outputs of different producers are kept in different storages with different files, then any two orders that respect the dependencies give the same result, from whatever state the build starts and for producers with any number of outputs: both succeed or both fail, and on success the files and their contents, the partitions known to the backend, the links of all snapshots, the values read and the calls of build of each producer are the same.", "quantifier": "all graphs, all states a history can lead to, all pairs of valid orders", "why_tests_cant": "All schedules.", "anchors": ["src/arti/executors/local.py:LocalExecutor.build"]}
{"id": "C44", "title": "Reading a snapshot returns the data of that snapshot", "statement": "Data read through a snapshot is not affected by later raw writes and builds. EXPECTED; violated for raw artifacts, whose location is overwritten in place while the recorded content fingerprint is not checked on read.", "quantifier": "all histories", "why_tests_cant": "All histories.", "anchors": ["src/arti/graphs/__init__.py:Graph.read", "src/arti/io/__init__.py:read"]}
{"id": "C45", "title": "Each build output is written to the artifact at its position", "statement": "The i-th value returned by build is written to the artifact that was bound to the i-th output. EXPECTED; violated when only some outputs of a producer are assigned in the graph.", "quantifier": "all producers, all subsets of outputs placed in the graph", "why_tests_cant": "All subsets.", "anchors": ["src/arti/graphs/__init__.py:Graph.producer_outputs", "src/arti/executors/__init__.py:Executor.build_producer_partition", "src/arti/producers/__init__.py:Producer.out"]}
{"id": "C46", "title": "io.read and io.write guard partition counts and types", "statement": "Reading raises on no partitions and on several partitions of a non-partitioned artifact; otherwise the result is the concatenation of all partitions.", "quantifier": "all partition lists", "why_tests_cant": "All lists.", "anchors": ["src/arti/io/__init__.py:read", "src/arti/io/json_localfile_python.py"]}
{"id": "C47", "title": "Type conversion picks the highest-priority matching adapter", "statement": "TypeSystem.to_artigraph/to_system use the adapter with the highest priority among those that match, the first registered among equals, and consult extended systems only if none matches; they raise iff none matches anywhere.", "quantifier": "all registries, all adapters, all types", "why_tests_cant": "All registries and orders.", "anchors": ["src/arti/types/__init__.py:TypeSystem"]}
{"id": "C48", "title": "Python type hints round-trip up to the documented widening", "statement": "For every artigraph type supported by the Python type system, converting to a hint and back yields the widened type (ints to Int64, floats to Float64, timestamps to microsecond, collections to lists), which is the identity on already widened types.", "quantifier": "all types, nested to any depth", "why_tests_cant": "Unbounded nesting.", "anchors": ["src/arti/types/python.py"]}
{"id": "C49", "title": "PyArrow types round-trip", "statement": "For every artigraph type supported by the PyArrow type system, converting and converting back yields the same type up to the attributes Arrow cannot carry (descriptions, names, element nullability).", "quantifier": "all types, nested to any depth", "why_tests_cant": "Unbounded nesting.", "anchors": ["src/arti/types/pyarrow.py"]}
{"id": "C50", "title": "lenient_issubclass is a sound order on hints", "statement": "lenient_issubclass is reflexive and transitive on plain and generic class hints, has Any as top element, ignores Annotated, treats unions on the right as any-of, and is covariant in generic arguments.", "quantifier": "all hints, nested to any depth", "why_tests_cant": "Unbounded nesting and all triples.", "anchors": ["src/arti/internal/type_hints.py:lenient_issubclass", "src/arti/internal/type_hints.py:_check_issubclass"]}
{"id": "C51", "title": "Registration order does not decide which handler wins", "statement": "With priorities, after any sequence of registrations under one key that raise no error the registry holds the value with the strictly highest priority, whatever the order; without priorities a second registration raises and keeps the first.", "quantifier": "all registration sequences and permutations", "why_tests_cant": "All orders.", "anchors": ["src/arti/internal/utils.py:register", "src/arti/views/__init__.py:View"]}
{"id": "C52", "title": "Literals assigned to a graph read back unchanged", "statement": "Casting a Python value to an artifact, assigning it to a graph and reading it returns an equal value, or casting refuses it. EXPECTED; violated for tuples (read back as lists), for every mapping (its JSON braces are formatted as a template, so reading raises) and for strings with braces (placeholders are silently substituted). Casting accepts only None, booleans, numbers, strings and non-empty uniform lists, tuples and mappings of them. Holds for None, booleans, numbers, strings and non-empty uniform lists of them whose strings have no braces.", "quantifier": "all Python values, all graph names, path tags and artifact names", "why_tests_cant": "Unbounded nesting.", "anchors": ["src/arti/artifacts/__init__.py:Artifact.cast", "src/arti/io/json_stringliteral_python.py", "src/arti/internal/type_hints.py:get_annotation_from_value"]}
{"id": "C53", "title": "Accepted producer classes are self-consistent", "statement": "For every producer class definition that is accepted: every build and map parameter is a field, every field is used by build or map, all outputs share one partitioning scheme, and a class whose outputs are partitioned defines its own map.", "quantifier": "all class definitions", "why_tests_cant": "All signatures.", "anchors": ["src/arti/producers/__init__.py:Producer.__pydantic_init_subclass__"]}
{"id": "C54", "title": "The serialised form of a TypedBox does not depend on assignment order", "statement": "Two boxes that hold the same values under the same keys serialise to the same document (which is what the graph fingerprint is computed from), whatever order the values were assigned in.", "quantifier": "all pairs of assignment histories ending in the same contents", "why_tests_cant": "All histories and nestings.", "anchors": ["src/arti/internal/mappings.py:TypedBox"]}
{"id": "C55", "title": "A view agrees with the annotation and the artifact it is made for", "statement": "View.from_annotation returns a view iff the annotation names at most one view class, artifact class and Type and they agree: what the annotation names takes precedence over defaults, defaults over inference from the hint; the view's type equals the default type of its artifact class, and its Python representation is an instance of the hint. Reading and writing through a graph use a view of the artifact's own class and type that passed these checks, and every hint that stands for a supported type can be used. EXPECTED; the last part is violated for artifacts of nullable type (nothing can be written to them or read from them with plain hints), for None (cannot be written or read) and for lists of TypedDicts (TypeError); booleans, bytes, tuples, sets, unions, literals and TypedDicts have no view.", "quantifier": "all annotations, view registries, artifacts, types nested to any depth, classes of data", "why_tests_cant": "All nestings of types and hints and all combinations of annotated items.", "anchors": ["src/arti/views/__init__.py:View", "src/arti/views/python.py", "src/arti/graphs/__init__.py:Graph.read", "src/arti/graphs/__init__.py:Graph.write"]}
{"id": "C56", "title": "An artifact assigned to a graph is stored under that graph's name, tags and key, and produced ones keep the fingerprint placeholder", "statement": "Whatever a program does, every produced artifact in a graph has the placeholder {input_fingerprint} in its storage. Every artifact that graph.artifacts.walk() yields at a key is one that was assigned to that key (directly or in a nested mapping) with graph name, tags and the full key put in for the placeholders of its storage and, if it is raw, nothing for the fingerprint; all else of the artifact, including its producer, is unchanged. Artifacts given to the constructor of a graph do not follow this: they keep the placeholders, or get those of another graph that is being defined.", "quantifier": "all programs that create, enter, leave, assign to, read, write, snapshot and build any number of graphs in any order; all graphs, keys, tags, nested mappings and storage templates", "why_tests_cant": "it must hold after every history of graph operations, including failed ones, and for every nesting of assigned mappings", "anchors": ["src/arti/graphs/__init__.py:ArtifactBox._cast_value", "src/arti/graphs/__init__.py:Graph.__enter__", "src/arti/internal/mappings.py:TypedBox", "src/arti/storage/__init__.py:Storage._visit_graph", "src/arti/storage/__init__.py:Storage._visit_names", "src/arti/storage/__init__.py:Storage._visit_input_fingerprint"]}
{"id": "C57", "title": "A hard-coded component in a storage template selects exactly the partitions that have it", "statement": "With a template like {date.Y[2021]}/{date.m}/{date.d}, discovery returns exactly the existing wanted partitions whose key has the hard-coded components, each once, at the path its key generates; files with other values are ignored. Generating a partition ignores the hard-coded text, so a partition with another value can be written but is never found.", "quantifier": "all templates with delimited placeholders of which some components are hard-coded, all key types of one class, all sets of existing files, all requested fingerprints", "why_tests_cant": "it ranges over all templates and directory contents, and depends on wildcards not matching across delimiters for any values", "anchors": ["src/arti/storage/_internal.py:WildcardPlaceholder", "src/arti/storage/_internal.py:StripIndexPlaceholder", "src/arti/storage/_internal.py:extract_placeholders", "src/arti/storage/_internal.py:parse_spec", "src/arti/storage/local.py:LocalFile.discover_partitions"]}
{"id": "C58", "title": "Producers take the artifacts that fit, and outputs are bound by position", "statement": "A producer class can be called with exactly one artifact for each of its input fields, each an instance of the field's class and, if build reads it, of the type of the view it is read with and readable through it. producer.out(a, b, ...) accepts exactly as many artifacts as build returns values, each fitting the output at its position and none of them already produced; it returns them in order, unchanged except that the n-th is the n-th output of this producer; out() makes default artifacts of the views' classes and types. Iterating gives the same artifacts; only a producer with one output can be assigned to a graph. If all outputs of a call are assigned once, the n-th value of build is stored for the n-th of them.", "quantifier": "all producer classes, views, artifacts and argument lists", "why_tests_cant": "All lists of artifacts of any length and all view classes and registries.", "anchors": ["src/arti/producers/__init__.py:Producer.out", "src/arti/producers/__init__.py:Producer.__iter__", "src/arti/producers/__init__.py:Producer._validate_instance_artifact_args", "src/arti/artifacts/__init__.py:Artifact.cast", "src/arti/views/__init__.py:View.check_artifact_compatibility"]}
{"id": "C59", "title": "By default no two artifacts, partitions or versions share a file", "statement": "With LocalFile's default path, the file of a partition is <dir>/<graph name>/<tag>=<value>/.../<keys of the artifact>/.../<key field>_<component>=<value>/.../<input fingerprint, if produced>/<last key><extension>. Two partitions with the same file have the same graph name, tags, artifact keys, extension, input fingerprint and partition key. (Violated for names that can be taken for other parts of a path: graph names or keys with a separator, keys with = or keys written like an integer.)", "quantifier": "all pairs of graphs, tags, artifacts (produced or not), key types, partition keys, fingerprints and extensions", "why_tests_cant": "it compares every pair of artifacts of every pair of graphs; a test can only show that some chosen pairs differ", "anchors": ["src/arti/storage/local.py:LocalFile.path", "src/arti/storage/__init__.py:Storage._visit_graph", "src/arti/storage/__init__.py:Storage._visit_names", "src/arti/storage/__init__.py:Storage._visit_type", "src/arti/storage/__init__.py:Storage.generate_partition", "src/arti/storage/_internal.py:strip_partition_indexes"]}
{"id": "C60", "title": "BigQuery schemas describe the types they are made from", "statement": "bigquery_type_system.to_system accepts exactly the types BigQuery has columns for (at any depth) and tables partitioned by a day with a three-part id. The table of a collection has one column per field, in order, with the field's name, SQL type, mode and description, is partitioned by the first partition field and clustered by the rest. Converting back gives the same type up to the documented widening (64-bit numbers, microseconds). (Violated: list descriptions, nullable lists, partition fields listed twice.)", "quantifier": "all types, nested to any depth, with any names, descriptions and nullability", "why_tests_cant": "types are nested without bound; tests list some types at depth one or two", "anchors": ["src/arti/types/bigquery.py:TableTypeAdapter", "src/arti/types/bigquery.py:ListFieldTypeAdapter", "src/arti/types/bigquery.py:StructTypeAdapter", "src/arti/types/bigquery.py:_create_schema_field", "src/arti/types/__init__.py:TypeSystem", "src/arti/types/__init__.py:Collection"]}
{"id": "C61", "title": "Making an artifact succeeds exactly for a fitting type, format and storage, and fixes the layout of its data", "statement": "Constructing an Artifact from a type, a format and a storage succeeds exactly if the format accepts the type, every field that a collection is partitioned by is a date, a signed integer or null, and the templates of the storage resolve. The artifact then has the given type and format, a storage whose key types are the partition fields of the type in order, and the annotations and statistics of its class followed by the given ones (none given: those of the class). With LocalFile's default template, the artifact can be added to every graph and the file of each partition is at the documented location. A storage may be used for several artifacts.", "quantifier": "every valid type, format, storage with template fields, artifact class with default annotations and statistics, graph name, path tags, key in the graph, input fingerprint and partition key", "why_tests_cant": "types, templates, class defaults and reuse of storages combine without bound; the interaction of validated defaults with the merging validator and of storages that were already visited only shows for combinations that no test constructs", "anchors": ["src/arti/artifacts/__init__.py:Artifact._validate_format,_validate_storage,_merge_class_defaults", "src/arti/storage/__init__.py:Storage._visit_type,_visit_format,resolve", "src/arti/partitions/__init__.py:PartitionKey.types_from,PartitionField.get_class_for", "src/arti/types/__init__.py:Collection.partition_fields", "src/arti/formats/__init__.py:Format._visit_type"]}
{"id": "C62", "title": "NumPy and pandas types round-trip", "statement": "numpy_type_system accepts exactly the stored scalars (all but dates and nulls) and bytes, and lists of them at any depth, as classes and arrays with one dimension per list; pandas_type_system accepts exactly the stored types, lists of them (series) and lists of structs of them (frames). Converting a type there and back yields the type without descriptions, nullability, sizes and names; converting an array, series or frame to a type and back keeps the element class, the number of dimensions, and the names, order and dtypes of the columns. Arrays with an empty dimension and frames with two columns of one name have no type. (Violated: series of bytes have no type; a series of objects is taken for strings by its first value only.)", "quantifier": "all types nested to any depth, all arrays of any shape, all series and frames with any number of columns", "why_tests_cant": "types, shapes and columns are unbounded; tests list a few", "anchors": ["src/arti/types/numpy.py:ArrayAdapter", "src/arti/types/numpy.py:_NumpyScalarTypeAdapter", "src/arti/types/pandas.py:SeriesAdapter", "src/arti/types/pandas.py:DataFrameAdapter", "src/arti/types/__init__.py:TypeSystem"]}
{"id": "C63", "title": "Pydantic models round-trip", "statement": "pydantic_type_system turns every type with a Python hint into a hint in which each struct is a model class, and turns that hint back into the type widened as by Python hints, with structs not nullable, fields with a leading underscore dropped, and enums and structs that are fields named as the field; exactly the types that models express come back unchanged, and a second round trip changes nothing. A model's type is a struct with its name and one field per model field, in order. Names that pydantic refuses have no model; models that refer to each other in a circle have no type. (Violated: nullable structs, private fields and names of nested structs are lost.)", "quantifier": "all types nested to any depth, all model classes, all recursion limits, all hints", "why_tests_cant": "types and models are unbounded in depth and number of fields; tests use a few models", "anchors": ["src/arti/types/pydantic.py:BaseModelAdapter", "src/arti/types/pydantic.py:pydantic_type_system", "src/arti/types/python.py:python_type_system", "src/arti/types/__init__.py:TypeSystem"]}
{"id": "C64", "title": "Partitions in Google Cloud Storage are found where they were written", "statement": "GCSFile puts a partition in its bucket, at the path that LocalFile would use for the same template; two partitions in one place have the same key and input fingerprint. discover_partitions returns exactly the partitions whose objects exist, each with the key and input fingerprint that generated its path and a content fingerprint of the object's MD5 (or CRC32C if it has none), filtered by the requested fingerprints, whatever is in other buckets. (Violated: an object below a path of the template's form makes discovery fail; the default path doubles the dot of the format's extension.)", "quantifier": "all buckets without placeholders, all delimited templates, all sets of objects, all filters", "why_tests_cant": "all sets of objects and all templates; tests use a fake bucket with a few objects", "anchors": ["src/arti/storage/google/cloud/storage.py:GCSFile.discover_partitions", "src/arti/storage/google/cloud/storage.py:GCSFilePartition.compute_content_fingerprint", "src/arti/storage/__init__.py:Storage.generate_partition"]}
{"id": "C65", "title": "A build over local files writes each output at the path its template spells, and nothing else is mistaken for it", "statement": "When every artifact of the graphs in use is stored in local files (or string literals), the templates of produced artifacts include the input fingerprint, no path fits both the template of a produced artifact and that of another artifact, and the files that fit a template were named by it, then after any history of builds (also interrupted), lookups, restarts and changes of raw files: if Graph.build succeeds, every produced artifact's evaluated partitions are in the files whose paths its template, input fingerprint and partition key spell, exactly those are read from the snapshot, raw data is exactly what is in the files of the raw templates, and an interrupted build can be resumed with the same values as if it had not been interrupted. No further assumption on how partitions are named is needed.", "quantifier": "all key types and templates of such a layout, all graphs, all file contents, all producers, all histories of events and crash points, all input data", "why_tests_cant": "It combines glob, parsing and formatting of arbitrary templates with arbitrary histories of builds; collisions between paths appear only for particular values of keys and fingerprints.", "anchors": ["src/arti/storage/local.py:LocalFile.discover_partitions", "src/arti/storage/local.py:LocalFilePartition", "src/arti/storage/__init__.py:Storage.generate_partition", "src/arti/storage/_internal.py:spec_to_wildcard", "src/arti/storage/_internal.py:parse_spec", "src/arti/storage/_internal.py:extract_placeholders", "src/arti/executors/local.py:LocalExecutor.build", "src/arti/graphs/__init__.py:Graph.build", "src/arti/backends/memory.py:MemoryConnection"]}
{"id": "C66", "title": "Nothing is built twice", "statement": "If a graph was built successfully from some raw data, and later, after any history in which no produced file was lost, the raw data of the graph is again the same, then a successful build of the graph calls no Producer.build and writes no file, in the same process or in a new process that has not looked at the storages of the graph. If only things happened that leave raw data and produced files alone, the repeated build always succeeds. (Without the last condition it does not hold: see C36.)", "quantifier": "all graphs of producers with one output and storages of their own, all raw data, all histories of builds, interruptions, changes of raw data and restarts", "why_tests_cant": "It quantifies over all histories between the two builds; whether work is repeated depends on what the backend has looked at and in which order.", "anchors": ["src/arti/executors/__init__.py:Executor.discover_producer_partitions", "src/arti/executors/local.py:LocalExecutor.build", "src/arti/backends/memory.py:MemoryConnection.read_artifact_partitions", "src/arti/storage/local.py:LocalFile.discover_partitions"]}
{"id": "C67", "title": "Output that was written only in part is not taken for a result", "statement": "EXPECTED: when writing a file is cut off, because the process is interrupted while it writes or because part of the data cannot be serialised, later builds do not use the file: they build the partition again or raise. VIOLATED: the writers open the final path and write piece by piece, so that a torn file has the name of a complete one; a build in a new process finds it, calls no producer, succeeds and returns the torn data. It holds that histories in which no file was torn are exactly as if each file were written at once, so that interrupted builds can be resumed, and that deleting the torn files before anything else happens is enough.", "quantifier": "all graphs, producers, file contents and serialisers, all ways to cut the serialised data into pieces, all interruption points and histories", "why_tests_cant": "The file is torn only at particular interruption points or for particular data; that the rest is unaffected is a claim about all histories.", "anchors": ["src/arti/io/json_localfile_python.py:_write_json_localfile_python", "src/arti/io/pickle_localfile_python.py:_write_pickle_localfile_python", "src/arti/io/__init__.py:write", "src/arti/storage/local.py:LocalFile.discover_partitions", "src/arti/executors/__init__.py:Executor.discover_producer_partitions"]}
{"id": "C68", "title": "Processes that build at the same time do not corrupt each other's results", "statement": "EXPECTED: when several processes, each with its own backend, build graphs over the same local files at the same time, in any interleaving, each build that succeeds has linked to its snapshot exactly what a build alone would have linked, the files hold the outputs of the producers on the inputs recorded for them, all successful builds of a graph agree, and files that are there stay as they are. VIOLATED: writers open the final path and fill it afterwards, so another process can take an empty file for the output and pass it on; both builds succeed with the same snapshot id and read different data. It holds if files appear with their content (as with writing to a temporary name and renaming), for graphs whose producers have one output.", "quantifier": "all numbers of processes, all interleavings of their file accesses, all graphs and producers that follow the placement rules, all interruption points, processes started at any moment", "why_tests_cant": "The result must not depend on the schedule; tests run one schedule of the operating system at a time and rarely the bad one.", "anchors": ["src/arti/executors/__init__.py:Executor.discover_producer_partitions", "src/arti/executors/local.py:LocalExecutor.build", "src/arti/storage/local.py:LocalFile", "src/arti/io/json_localfile_python.py:_write_json_localfile_python", "src/arti/graphs/__init__.py:GraphSnapshot.from_graph"]}
{"id": "C69", "title": "Reading from a graph without a snapshot returns current data", "statement": "EXPECTED: Graph.read without a snapshot returns, for a raw artifact, the decoded contents of exactly the partitions that its storage holds now (what was written through the graph is read back, beside the partitions under other keys); for a produced artifact it returns what a build of the current raw data makes: never data of older raw inputs, and after a build, for as long as the raw partitions are the same, what that build made; before any build it raises rather than returning something. It does not build, and leaves all files as they are. VIOLATED: after an interrupted build a partitioned artifact is read without an error with only the partitions that had been built; and what is written to a raw artifact in a string literal cannot be read back.", "quantifier": "all graphs, artifacts, views, raw data, histories of builds, writes, file changes and crashes before the read", "why_tests_cant": "Staleness depends on the whole history before the read; tests follow a few histories.", "anchors": ["src/arti/graphs/__init__.py:Graph.read", "src/arti/graphs/__init__.py:Graph.write", "src/arti/graphs/__init__.py:GraphSnapshot.from_graph", "src/arti/storage/literal.py:StringLiteral", "src/arti/backends/memory.py:MemoryBackend"]}
{"id": "C70", "title": "The function for a read or a write is determined by classes alone", "statement": "EXPECTED: functions registered with io.register_reader and io.register_writer are accepted only if their parameters and return match the first function; looking one up for the classes of the arguments finds a registered function that can be called with them and than which no other is more specific, the most specific one if there is one, and raises ValueError if there is none; the result depends only on which functions are registered, not on the order of registrations, on earlier lookups or on when the functions of the package are imported; a function that is registered is found at once. VIOLATED: a function of a user for the same classes as one of the package is replaced by it at the first lookup for other classes; functions whose parameters are in another order are accepted but never found for a call; functions registered with a list of classes are not checked.", "quantifier": "all class hierarchies, signatures, sets of functions, orders of registrations, lookups and calls", "why_tests_cant": "Dispatch depends on the whole history of registrations, imports and cached lookups and on the class hierarchy; tests fix a few of each.", "anchors": ["src/arti/internal/dispatch.py:_multipledispatch.register", "src/arti/internal/dispatch.py:_multipledispatch.lookup", "src/arti/internal/dispatch.py:_multipledispatch.__missing__", "src/arti/io/__init__.py:_discover", "src/arti/io/__init__.py:register_reader"]}
{"id": "C71", "title": "Classes can be instantiated and found as they are declared", "statement": "EXPECTED: a model class can be instantiated exactly if its own body does not mark it as abstract and it leaves no abstract method, whatever its bases say; each Type class has at most one partition field class, which PartitionField.get_class_for finds from its declaration on and for ever, and which is a declared, not abstract subclass with that matching_type; a partition field class is accepted exactly if it has default components and a matching type, its default components exist and its type has no class yet; refused declarations have no effect; the default templates refer to existing attributes. VIOLATED: only the names of the default components are checked, not what they are formatted as, so that an accepted class can make storages whose paths cannot be formatted.", "quantifier": "all sequences of class declarations, accepted or refused, all class trees and bodies", "why_tests_cant": "Registration happens when classes are declared, anywhere and in any order; tests declare a few classes.", "anchors": ["src/arti/internal/models.py:Model.__pydantic_init_subclass__", "src/arti/internal/models.py:Model.__new__", "src/arti/partitions/__init__.py:PartitionField.__pydantic_init_subclass__", "src/arti/partitions/__init__.py:PartitionField.get_class_for", "src/arti/partitions/__init__.py:PartitionField.components"]}
{"id": "C72", "title": "Storage classes generate their partitions", "statement": "EXPECTED: a concrete storage class is accepted exactly if it has the fields of its partition class with the same annotations, so that every instance generates partitions: exactly the fields of the partition class are passed, each with the value of the storage, formatted if it is a string, and none is missing, unknown or given twice; Storage[P] itself is never instantiated. VIOLATED: a direct subclass of Storage without a partition class is accepted and instantiated, but cannot generate a partition.", "quantifier": "all sequences of class declarations, all storage and partition classes with their own and inherited fields, all field values", "why_tests_cant": "The check compares inherited fields of two class trees that users write; tests declare a few storages.", "anchors": ["src/arti/storage/__init__.py:Storage.__class_getitem__", "src/arti/storage/__init__.py:Storage.__pydantic_init_subclass__", "src/arti/storage/__init__.py:Storage.generate_partition"]}
{"id": "C73", "title": "All modules of a package are imported", "statement": "Importing the submodules of a package (as reads, writes and views do to find readers, writers and views) imports exactly the modules in the directories of the package and in every directory below them, with or without __init__.py, each under the dotted name its place spells and none twice; it succeeds exactly if each of them can be imported. Left out are directories with a dot in the name, and the modules directly in a directory whose name ends with __pycache__ or in ez_setup at the top.", "quantifier": "all directory trees of any depth, all package paths and names, all outcomes of single imports", "why_tests_cant": "Unbounded depth and breadth of directories; the test has one fixed tree.", "anchors": ["src/arti/internal/utils.py:import_submodules", "src/arti/internal/vendored/setuptools.py:PackageFinder", "src/arti/io/__init__.py:_discover"]}
{"id": "C74", "title": "Threads can share a backend", "statement": "When threads use one memory backend at the same time, whatever a read returns matches the input fingerprints that were asked for and was written to (or discovered in) the same storage, or linked to the same artifact of the same snapshot, by somebody; a read returns every matching partition whose write had returned before the read began; no such call raises. A graph, snapshot or tagged snapshot that is read was stored under that name and fingerprint or tag, what was stored before is found, and of several threads that set a tag without overwriting only one succeeds.", "quantifier": "all numbers of threads, all sequences of calls in each of them, all interleavings of their steps, all earlier histories of the backend", "why_tests_cant": "The number of interleavings is unbounded and a test cannot choose where the interpreter switches threads.", "anchors": ["src/arti/backends/memory.py:MemoryConnection", "src/arti/backends/memory.py:_NoCopyContainer", "src/arti/backends/memory.py:MemoryBackend.connect"]}
{"id": "C75", "title": "The decorator makes the producer that the function describes", "statement": "producer(...) applied to a function gives a producer class exactly if every parameter is an input (a hint with a view, no default, passed by keyword, a name that producers do not use themselves), every output can be written, all outputs have one partitioning scheme, validate_outputs takes the outputs, and map takes inputs as partitions or the outputs are not partitioned. The class has one input per parameter in their order, of the artifact class of the hint, the function as build, the given map (or one that passes all inputs on), validate_outputs, annotations and version, the given name or that of the function, and the module of the code that applies the decorator; it is the class that the corresponding class statement makes.", "quantifier": "all functions and signatures, all arguments of the decorator, all type hints and answers of the type system, any number of uses of one decorator object", "why_tests_cant": "All signatures, names and combinations of arguments.", "anchors": ["src/arti/producers/__init__.py:producer", "src/arti/producers/__init__.py:Producer.__pydantic_init_subclass__", "src/arti/internal/utils.py:get_module_name"]}
{"id": "C76", "title": "Names with a leading underscore are never keys of a TypedBox", "statement": "A key with a part that begins with an underscore can be neither read nor assigned, as an item or as an attribute, and is never contained; the attempt raises, with InvalidKeyError if the first part is such a name, and leaves all values as they were. No value is ever stored under such a key, also not by the constructor or inside of an assigned mapping.", "quantifier": "all boxes, keys of any depth, values, programs of operations, open or closed", "why_tests_cant": "All keys, all boxes and all histories.", "anchors": ["src/arti/internal/mappings.py:TypedBox._get_leaf_and_key", "src/arti/internal/mappings.py:TypedBox.__getattr__", "src/arti/internal/mappings.py:TypedBox.__setattr__"]}
{"id": "C77", "title": "Errors are reported with the place and keep the original error", "statement": "An error that is raised inside of nested wrap_exc blocks for its class leaves the outermost block as an error of that class, whose message is all prefixes (outermost first), ' - ' and the message of the original error, and whose cause is the original error itself; other errors and results pass unchanged, and nothing is swallowed.", "quantifier": "any number of nested blocks, all prefixes, all classes of errors, all errors", "why_tests_cant": "Any depth of nesting and any mix of error classes.", "anchors": ["src/arti/internal/__init__.py:wrap_exc"]}
{"id": "C78", "title": "A call with an explicit connection works on the backend of that connection only", "statement": "Graph.snapshot, read and write and GraphSnapshot.tag, read, write and from_tag, called with a connection to another backend, return or raise what they would on a graph that has that backend as its own, have the same effect on it, and leave the backend of the graph as it is. Without a connection they use the backend of the graph and leave others as they are. A snapshot that was taken with a connection can be built.", "quantifier": "all graphs, worlds, pairs of backends and sequences of calls", "why_tests_cant": "Tests pass a connection to single calls on single graphs with one backend; whether some call, in some sequence and state, falls back to the other backend is not settled by that.", "anchors": ["src/arti/graphs/__init__.py:Graph.read", "src/arti/graphs/__init__.py:Graph.write", "src/arti/graphs/__init__.py:Graph.snapshot", "src/arti/graphs/__init__.py:GraphSnapshot.from_graph", "src/arti/graphs/__init__.py:GraphSnapshot.tag", "src/arti/executors/local.py:LocalExecutor.build"]}
{"id": "C79", "title": "Mappings are validated with the types they are declared with", "statement": "A field whose hint is a frozendict with arguments, or a class below one (through any number of subclasses, generic or not), validates keys and values with the types that the declarations give for keys and values; if a declaration leaves one open, an error is raised.", "quantifier": "all chains of class declarations and all type arguments", "why_tests_cant": "Tests declare a few classes; the claim is about every way to subclass and subscript, with parameters passed on, bound or renamed in between.", "anchors": ["src/arti/internal/type_hints.py:get_class_type_vars", "src/arti/internal/mappings.py:frozendict.__get_pydantic_core_schema__"]}
{"id": "C80", "title": "Equal boxes hold the same values and have the same hash", "statement": "Two TypedBoxes are equal iff they hold equal values under the same keys, in whatever order and form they were assigned. Closed boxes that are equal have the same hash, which never changes; open boxes cannot be hashed.", "quantifier": "all pairs of boxes that programs can build, all nestings, orders and programs", "why_tests_cant": "Tests compare a few literals; the claim is about boxes from all programs, whose dicts differ in order and whose nested boxes are made by lookups and dotted keys.", "anchors": ["src/arti/internal/mappings.py:TypedBox.__hash__", "src/arti/internal/mappings.py:TypedBox.__getitem__"]}
