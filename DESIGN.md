# Formal model of turms: design

Subject: `jhnnsrs/turms` (Python code generator GraphQL -> Python) at the pinned commit in `/repo`.
Prover: Lean 4.33.0. Everything lives in `lean/Verif/`; `lake build` in `lean/` checks all of it.

## Layout

| directory | content |
| --- | --- |
| `Verif/Model/*.lean` | the model: one Lean file per area of `/repo/turms`; every definition cites file and lines and says where it simplifies |
| `Verif/Spec/*.lean` | small, independent specifications (reachability, token sequences, accepted values, evaluation of generated Python, ...). They do not use the model's helper functions |
| `Verif/Lemmas/*.lean` | auxiliary lemmas and invariants |
| `Verif/Props/*.lean` | the property theorems `Cnn_*`, each with an `example` that meets its hypotheses, and the counterexamples where the code does not satisfy the English property |

Conventions

* Python functions become total Lean functions; a raised exception is a value (`Except`).  Nothing is
  totalised by a default value.
* Mutable registry state is threaded explicitly (`Reg -> Except Err (a x Reg)`).
* Python `dict` = insertion-ordered association list with unique keys; Python `set` = duplicate-free
  list, and wherever a set is *iterated* the iteration order is a universally quantified permutation.
* Theorems named `..._partial` prove less than the English statement; the comment beside them says what
  is missing.  Theorems named `..._counterexample` / `..._fails` prove that the English statement is false
  of the code, with a concrete witness.

## Trusted base

* Lean's kernel and the axioms `propext`, `Classical.choice`, `Quot.sound` (each theorem depends on a subset
  of these; checked with `#print axioms` over all property theorems, see the end of this file).
* No axioms of our own, no `sorry`/`admit`, no `native_decide`/`bv_decide`.
* The correspondence between the Python source and the Lean model, established by reading (the code was not
  run).  Third-party libraries are not modelled beyond the interface used: graphql-core (parser, printer,
  validation, `get_field_def`), pydantic (validation semantics is *specified*, `Spec`), libcst, `ast.unparse`,
  `re` (the three regular expressions used are modelled directly), YAML/JSON/TOML loaders, requests,
  subprocess, watchfiles, rich.

## Plan per property

* **C01** snake_case styling only inserts underscores and lower-cases, and is stable. Model `camel_to_snake` char by char (both regex substitutions as left-to-right scanners). Induction over the scanners.
* **C02** A generated attribute never is a Python keyword and never loses its wire name. Model styler chains as arbitrary functions `String -> Except`; the keyword escape of `generate_node_name`/`generate_parameter_name`; the field emitters' alias decision. Wire key defined in Spec by how pydantic reads `Field(alias=...)`.
* **C03** Capitalising / suffixing stylers are stable and chained in configuration order. Model the four shipped stylers; case analysis and induction over the styler list.
* **C04** A GraphQL definition is registered at most once and its class name never changes afterwards. Registry model + invariant over arbitrary histories of registry operations.
* **C05** A class is referenced by bare name only if it already exists; otherwise the reference is quoted and scheduled for resolution. Same histories; the returned expression is compared with the set of registrations that happened strictly before.
* **C06** The forward-reference section is sorted, duplicate free and complete. `sorted(set)` modelled by insertion sort on the duplicate-free list; sortedness, nodup and membership proved over histories.
* **C07** Import statements bind exactly the registered imports, whatever order the set is iterated in. `generate_imports` over an arbitrary permutation of the import set; spec = set of (module, name) pairs bound.
* **C08** Scalar resolution: configuration wins, defaults next, otherwise an error. Decision logic of `reference_scalar` on the merged map.
* **C09** Helper classes are emitted exactly when they are used. Registry histories; builtins set vs. references.
* **C10** Fragment dependencies are the transitively spread fragments. Selection-set trees, fragment map, the recursive search with shared visited set (well-founded on unvisited fragments). Spec: inductive reachability relation. Partial for inline fragments (not followed by the code: counterexample).
* **C11** Fragment classes are emitted after every fragment they depend on. Kahn's algorithm with the exact queue discipline; invariants; acyclic = well-founded/ranking function.
* **C12** Ordering fragments always terminates and never loses a fragment. Same model, no acyclicity hypothesis.
* **C13** The embedded document is self-contained. Text-level regex search modelled on characters; printer of selection sets; closure by fuel-free well-founded recursion. Counterexample for names containing digits/underscores.
* **C14** Missing fragments are reported, present ones never are. Same model; error iff.
* **C15** __typename is requested in every nested selection set, nothing else changes. Structural recursion on selection sets. Counterexample for inline fragments.
* **C16** Argument annotations mirror the GraphQL type at every depth. Annotations as Python expressions, their accepted values as an inductive Spec relation; induction on the type.
* **C17** An input model field is required exactly when the server requires it. Decision logic on (type, default) plus accepted-values semantics.
* **C18** Response annotations mirror the wrapping of the GraphQL field type. As C16, for output types with list/tuple.
* **C19** Generated response models accept every conforming response. Generator for nested classes + pydantic acceptance semantics; conforming responses as an inductive relation. Partial for what is missing; counterexamples for unions.
* **C20** Object models mirror the schema field types. As C16 for object fields.
* **C21** Function return annotation equals the field annotation of the operation model. Both code paths modelled; equality where it holds, counterexample for `recurse_outputtype_annotation`.
* **C22** Generated signatures are valid Python. Parameter lists as generated; validity of Python signatures is a Spec predicate.
* **C23** A generated function sends exactly the variables the caller supplied. Small-step-free evaluator for the generated statements (Spec); induction over variables. Counterexample when a variable is called `variables`.
* **C24** Expanding an input type into parameters sends the same payload as passing the input. Same evaluator.
* **C25** Input factories build the model from exactly the supplied fields and never shadow their class. Same evaluator. Counterexample for a field called `data`.
* **C26** Freeze and option settings reach exactly the selected types. Decision logic stated outright for all configurations. Counterexample for operations.
* **C27** Pydantic v1 and v2 configuration agree. Equality of the two generators up to renaming.
* **C28** Document validation runs exactly the rules that are not omitted. List filter; order/nodup/membership.
* **C29** Plugin coercions override global ones. Dict merge laws.
* **C30** Merging keeps the user's code. Modules as lists of tagged statements; induction over the existing module.
* **C31** Merging brings in every generated class, function and member exactly once. Induction over the generated module.
* **C32** Merging is idempotent. Algebraic law.
* **C33** Merging unchanged generated code is the identity. Algebraic law.
* **C34** Without an existing file the merge processor returns the generated code unchanged. File system as a map; decision logic.
* **C35** Module assembly: imports, helpers, plugin output in order, rebuilds. Plugins as arbitrary state transformers.
* **C36** Processors are applied in configuration order and the first failure stops generation. Processors as arbitrary functions; fold.
* **C37** A failing project never touches files and never stops the other projects. File system as a map; induction over the project list.
* **C38** The generate command fails exactly when a project with exit_on_error failed. Same run; iff.
* **C39** The Python API gen() writes the generated code of each project. Model of `gen`; the property is false, negation proved.
* **C40** Schemas are loaded from the configured source. Loaders as oracles; decision logic per configuration shape.
* **C41** Project selection and config discovery. Decision logic.
* **C42** init and download never overwrite a file without consent. Decision logic over file system states and answers.
* **C43** Reference analysis finds exactly the reachable inputs and enums. Closure with visited list, inductive reachability Spec.
* **C44** Dropping unreferenced inputs and enums never drops one that generated code needs. Comparison of two traversals. Counterexamples where they disagree.
* **C45** Polyfilling keeps every imported name bound. Statement lists; induction.
* **C46** @oneOf inputs are validated before generation. Decision logic.
* **C47** @oneOf inputs serialise to exactly one tagged key. Evaluator for the generated serializer.
* **C48** Every input is generated at most once and unions come after their members. Induction over the type map.
* **C49** Object classes are emitted after their bases and list only minimal interfaces. Induction over the emission order.
* **C50** Interface references resolve to exactly the implementing classes. Same.
* **C51** Generated enums carry exactly the schema's values. Map over values.
* **C52** Strawberry resolver signatures are valid and keep every argument. Stable sort by default presence.
* **C53** Default values and directive literals are rendered faithfully. Literal evaluator as Spec; structural induction.
* **C54** Loading from globs does not depend on directory order and splits cleanly. Sorting is permutation invariant; lexer model for concatenation.
* **C55** External processors never let broken output through. Tool runs as oracles.
* **C56** Deprecation and documentation metadata are complete. Decision logic on strings.
* **C57** Distinct selection paths get distinct classes. Injectivity of path -> class name up to case folding; counterexample for case-only differences.
* **C58** Dotted import strings resolve to the named attribute. `rsplit` on characters.
* **C59** Watch mode reacts to every graphql document change. `split` on characters; counterexamples.
* **C60** No name used while a module is executed is unbound. Spec: scoping of module/class bodies (`Spec/Scope`), bound and used names of statements; a Hoare-style walk (`Scoped`) over the generators. Partial: configuration names outside the module are assumed importable; counterexamples where the code leaves a name unbound.
* **C61** A field's attribute never hides a type used later in the same class. Spec: class bodies evaluate annotations in order; exact condition under which hiding happens, counterexamples.
* **C62** Discriminated unions list exactly the possible types. Induction over the possible types.
* **C63** A quoted name in an annotation is defined by the module. `Quotes` walk over all plugins; partial (closure hypotheses), counterexamples for left-out types and interface fragments.
* **C64** A crash while writing leaves the old file or a prefix of the new one. File writes as step sequences with arbitrary crash points; the property is false for the truncating writes, negation proved, positive part partial.
* **C65** Watch mode regenerates after every relevant event and survives failures. Event histories as lists, induction.
* **C66** Strawberry modules mirror the schema's kinds, fields and bases. Induction over the type map.
* **C67** Strawberry modules can be imported. Scoping as C60; partial, counterexamples.
* **C68** Strawberry resolver argument annotations accept exactly the GraphQL argument. As C16; partial.
* **C69** Reproducible generation. A run is parametrised by the order in which its process iterates sets (any
  permutation); two runs of `generateAst` are compared statement by statement, the import section through the names it
  binds. Partial: two imports with the same last component make the meaning depend on the hash seed.
* **C70** Names of generated functions. `Forall₂` between the emitted functions and the (operation, definition) pairs;
  distinctness and identifiers under stated hypotheses. Partial: collisions, keywords and hidden classes.
* **C71** Validation of configured Python names. The validators are modelled as loops over the configuration; acceptance is an
  iff with a declarative `Configured`; uses are followed through every registry history to the import section. Partial:
  builtins outside the seven exempt ones are imported, malformed paths are accepted.
* **C72** Specify which paths a selection set asks for (`Asks`, from GraphQL's CollectFields) and which paths a module offers (`Offers`, from class statements, bases and aliases), define the selection shapes for which nothing is dropped (`Keepable`), and prove by induction over the selections, the fragments in dependency order and the operations that every asked path is offered. Shapes outside are shown to lose data by running the model on a concrete document and a checker proved right.
* **C73** Specify execution of class statements with CPython's C3 linearisation (`Spec/Hierarchy`). Prove that merging linearisations that share only a common suffix of configured bases succeeds, and carry through the walk over selections, fragments in dependency order and operations the invariant that the ancestry of every class consists of the classes generated for its selection, the ancestries of the fragments it inherits from, and the configured bases.
* **C74** Extend the scope analysis of C60 to the functions: every generator of parameters, defaults and bodies only mentions names registered by then, input and enum classes, and the annotation of the operation class (C21). Combine with the execution of calls (C23-C25), whose hypothesis about UNSET is needed for functions that use it only.
* **C75** Model/Templates.lean models the templates as values and reads them back with the validators of the configuration (YAML is taken to be lossless). C75_init_loads states what the project is for every set of installed modules; C75_functions_partial composes the templates for rath and gql with C74; C75_rath_counterexample shows a module from the untouched rath template that cannot be imported.
* **C76** `Executes` (Spec/Module.lean) runs the whole statement list of `generateAst`, with imports binding names and nothing else provided. Assembly theorem: the per-plugin results (C60, C67, C74: `Resolves`) compose with C07, C09 and C71. For the strawberry plugin and for the pydantic plugins all hypotheses about plugins are discharged. Counterexamples: introspection enums without the enums plugin; rebuild of a class that does not exist.
* **C77** Specification `GenerableDocument` (Spec/Generable): the validity rules of GraphQL, narrowed where the code cannot handle a valid document. Progress lemmas for each function of the walk (`Go`), then for the loops of the plugins, with the registry's tables as invariant. Each narrowing has a counterexample: a valid document for which the model of the code raises.
* **C78** the docstring is built by `docRequired`, `docOptional` and friends, separately from the signature; the specification (`Spec/FuncDocs.lean`) says which lines it has, and the theorem relates them to the parameters one by one, by induction over the variables and, for the descriptions, over the selections and their arguments.
* **C79** The converse of C19, proved together with C72 in one walk over the selections (Lemmas/Kept*): besides offering every path, each annotation `Guards` its field, i.e. every value possibly accepted (`Spec.MayAccept`, an upper bound of pydantic's acceptance that leaves open which of several declarations of an attribute counts) delivers what the field promises (`Spec.Delivers`).  Limits are counterexamples.
* **C80** A relation between two registries (the same about fragments, operations and the names of the old schema; anything about other inputs and enums) and a simulation logic for generators: whatever a generator returns on the old schema it returns on the new one, keeping the relation. By structural induction over selections, loops and type references for the three plugins that read documents; the relation after the enums and inputs plugins from their characterisation (C17, C46, C51).
* **C81** Relational: the simulation of C80 between two registries that agree on the needed fragments only; every generator touches only the entries of its own definition; induction over the dependency order of the smaller document against the trace of the larger run.
* **C82** Relational logic on generators: two runs from registries that agree up to the varying imports give results of the same shape. Proved for every function of the eight plugins, lifted to lists of plugins and to the module.
* **C83** Spec/InputValues: InputValue (GraphQL side) and Sends (pydantic side, including the tag table of the serializer). Strong induction on the size of the value, in both directions, from the shape of the statements emitted for each kind of input.
* **C84** Two registries are compared that agree on the names of kept types (Pair). Every generator that only mentions kept names returns the same on both (simulation in both directions); every generator for a dropped type leaves the kept names alone (Off). Induction over the loops of the two plugins gives sublists; the simulation of the document plugins (C80) gives equality.
* **C85** Functions only touch imports, helper classes and forward references, so two registries met during the same run agree on everything else; the simulation of C80 with both schemas equal shows every part of the two functions equal, so both are renderings of one template. The calls are run with the interpreter of C22/C23.
* **C86** Histories are an inductive relation of runs (mergeModules) and edits; C30 gives one step, induction the rest. Stability by induction on the number of runs from C32 and C33, over the processor pipeline of C36, for every parser and printer that reads what it printed.
* **C87** Spec/Variables states both sides. The Arguments class of every operation is followed through the four plugins (the registry keeps the scalar and input tables), one field per variable; the annotations are exact by C16, and C83 settles the values of input types.
* **C88** Spec/TypedCalls says when an argument respects an annotation and what a Python object is serialised to. The annotations of all parameters are followed through the plugins: what they accept is legal for the type (C16, C24, C83), and the UNSET marker passes only where it is left out of the dictionary. With C23 (what a call sends) the variables are accepted.
* **C89** Spec/RoundTrip says what reading an attribute of a pydantic model yields, and what a call hands back. C23 gives the attribute that is read, C21 the annotation, C19 that conforming answers are accepted and C79 that accepted answers deliver. The statement of the only root field in the class of the operation connects them.
* **C90** Spec/StrawberryDirectives says what the class of a directive looks like and which calls of a dataclass Python accepts. The loop over the directives is followed; annotations by the common shape of annotation builders (C68), defaults by C53. C66 says that applications are calls with the arguments of the application.
* **C91** Spec/Syntax is an independent parser of executable documents on the tokens of the October 2021 grammar. Printing followed by reading is the identity, by induction on syntax trees with lexical adjacency conditions; this also proves the hypothesis ParsesBack of C13, C14, C77 and C81 for a parser that follows the grammar. The fragment registry is followed through both plugins, and C13 gives the embedded fragments.
* **C92** Spec/Conditional.lean describes selections with conditions and the answers a server may send (only selections whose conditions hold are answered). The generator reads no directives of document nodes, so the model's input is the document without conditions (CDefn.plain). C19 is proved for sparse answers, in which entries of nullable fields may be missing; every conditional answer is such a sparse answer for the plain document when the conditional selections are droppable. Counterexample for a conditional non-null field.
* **C93** Spec/ClassDocs.lean says what a docstring, a field comment and a Meta attribute are. The theorems follow the loops of the four plugins: every definition contributes its statements to the result, and the statements of one definition are read off its generating function. That Meta is not produced by anything else in the class body is shown by looking at every other statement.
* **C94** Spec/ClassBases.lean lists the configured bases of each kind of class by themselves (wantedBases, extraBases, interfaceBases with their fallbacks). The theorems follow the loops of the plugins as in C93 and compare the base list of the class statement as a whole.
* **C95** Model/OperationDocs.lean has str.splitlines, graphql-core's get_location and the regular expression. Spec/OperationDocs.lean says what a line, an offset on a line and the comments of a list of lines are. Both ways of counting are shown to agree by induction on the lines before the position, for texts whose lines contain no further characters at which Python breaks lines; counterexamples show what happens otherwise, and that any # counts.

## What is modelled and what is not

Modelled (see the table of cited functions below): name stylers, class registry, the recursive response-class
generator, all plugins (enums, inputs, fragments, operations, funcs, input_funcs, objects, strawberry), reference
analysis, module assembly, the polyfill parser, all processors' own decision logic, configuration decision logic,
project loading, the CLI commands and the watcher's filter.

Not modelled, or only through their interface:

* graphql-core (parsing, printing, validation, introspection), pydantic's validator (its acceptance relation is a
  specification), libcst's concrete syntax (modules are statement lists), `ast.unparse`, black, isort, ruff as
  programs (arbitrary functions or oracles), YAML / JSON / TOML readers, HTTP, `watchfiles`, rich output.
* abstract base methods that only raise `NotImplementedError` (`parsers/base.py`, `plugins/base.py`,
  `processors/base.py`) and logging (`print_logger`, `LogFunction`, `warn`).
* one-line delegations folded into a generic definition of the model: `reference_object`, `reference_fragment`,
  `generate_query` / `_mutation` / `_subscription` and their style / reference variants,
  `merge_body_sequences` / `merge_bases_sequences` (list append), `target_from_node` (the response key).
* the Python-to-text step: the model's modules are statement trees; what `ast.unparse` prints is trusted.

Source positions, comments and blank lines of generated text are not represented, except in the merge model where
statements carry an arbitrary payload.

<!-- everything below is written by tools/design.py -->

## Functions of the code cited by the model

| file | cited / all | not cited |
| --- | --- | --- |
| `turms/cli/main.py` | 15 / 15 |  |
| `turms/cli/watch.py` | 1 / 2 | stream_changes |
| `turms/config.py` | 9 / 10 | LogFunction.__call__ |
| `turms/helpers.py` | 8 / 8 |  |
| `turms/parsers/base.py` | 0 / 1 | Parser.parse_ast |
| `turms/parsers/polyfill.py` | 3 / 3 |  |
| `turms/plugins/base.py` | 0 / 2 | print_logger, Plugin.generate_ast |
| `turms/plugins/enums.py` | 2 / 2 |  |
| `turms/plugins/fragments.py` | 7 / 7 |  |
| `turms/plugins/funcs.py` | 30 / 32 | camel_to_snake, generate_document_arg |
| `turms/plugins/input_funcs.py` | 3 / 3 |  |
| `turms/plugins/inputs.py` | 11 / 13 | _snake, InputsPlugin.generate_ast |
| `turms/plugins/objects.py` | 2 / 3 | ObjectsPlugin.generate_ast |
| `turms/plugins/operations.py` | 7 / 7 |  |
| `turms/plugins/strawberry.py` | 11 / 12 | StrawberryGenerateFunc.__call__ |
| `turms/processors/base.py` | 0 / 1 | Processor.run |
| `turms/processors/black.py` | 0 / 1 | BlackProcessor.run |
| `turms/processors/command.py` | 1 / 1 |  |
| `turms/processors/disclaimer.py` | 1 / 1 |  |
| `turms/processors/isort.py` | 0 / 1 | IsortProcessor.run |
| `turms/processors/merge.py` | 6 / 6 |  |
| `turms/processors/ruff.py` | 2 / 2 |  |
| `turms/recurse.py` | 2 / 2 |  |
| `turms/referencer.py` | 10 / 10 |  |
| `turms/registry.py` | 40 / 58 | ClassRegistry.register_operation_single, ClassRegistry.reference_object, ClassRegistry.get_interface_fragment_implementations, ClassRegistry.get_fragment_type, ClassRegistry.reference_fragment, ClassRegistry.is_interface_fragment, ClassRegistry.reference_interface_fragment, ClassRegistry.register_interface_fragment, ClassRegistry.generate_query, ClassRegistry.reference_query, ClassRegistry.style_mutation_class, ClassRegistry.generate_mutation, ClassRegistry.reference_mutation, ClassRegistry.style_subscription_class, ClassRegistry.generate_subscription, ClassRegistry.reference_subscription, ClassRegistry.get_fragment_document, ClassRegistry.warn |
| `turms/run.py` | 17 / 18 | json_loader |
| `turms/stylers/appender.py` | 6 / 6 |  |
| `turms/stylers/base.py` | 18 / 18 |  |
| `turms/stylers/capitalize.py` | 6 / 6 |  |
| `turms/stylers/default.py` | 9 / 9 |  |
| `turms/stylers/snake_case.py` | 3 / 3 |  |
| `turms/utils.py` | 24 / 27 | merge_body_sequences, merge_bases_sequences, target_from_node |

## Where the code does not satisfy the English property

Each of these is a theorem about the model.

* `C01_not_injective_counterexample` (Stylers.lean): Limit of C01: styling is *not* injective, so two different GraphQL fields of one type can be given the same Python attribute (the code does not detect this).
* `C02_discriminator_keyword_counterexample` (Attributes.lean): C02 fails for discriminators: a discriminator that is a Python keyword is declared as it is, so the module is not even syntactically valid.
* `C02_discriminator_lost_counterexample` (Attributes.lean): C02 fails for discriminators: a field with another name whose styled form equals the discriminator is left out of the class, its wire name is lost.
* `C02_discriminator_twice_counterexample` (Attributes.lean): C02 fails for discriminators: if the discriminator is a declared field whose styled name differs, the class gets two attributes with the same wire name — the `Literal` and the open field.
* `C04_class_names_collide_counterexample` (Registry.lean): Limit of C04: uniqueness is per GraphQL name and kind, not per *class name*: two different input types can be given the same class, silently.
* `C04_kinds_collide_counterexample` (Registry.lean): Limit of C04: a fragment and an object type of the same name get the same class.
* `C04_second_registration_fails` (Registry.lean): C04: once a definition has been registered, registering it again fails, at any later time.
* `C05_helper_shadows_enum_counterexample` (Registry.lean): Limit of C05: an enum of the schema that happens to be called like a helper (`Deprecated`, `GraphQLDefault`, `UNSET`) is never referred to: the reference points to the helper class and the helper is emitted under the same name as the enum class.
* `C05_no_forward_fails` (Registry.lean): C05: with forward references disallowed, referring to something not registered before (and not a helper enum) always fails.
* `C05_parent_is_not_checked_counterexample` (Registry.lean): Limit of C05: the call does not check that `parent` is a class. `FuncsPlugin` passes the literal `"SHOULD_NOT_BE_USED"` (`turms/plugins/funcs.py:186-275`); if the referenced input was not generated (e.g. no `InputsPlugin`), the module ends with a rebuild of a class that does not exist.
* `C07_builtin_bytes_imported_counterexample` (Registry.lean): Limit of C07: a plain name outside the seven listed builtins is imported as a module, so e.g. a scalar coerced to `bytes` (registered by the functions plugin without checking for a dot) yields `import bytes`.
* `C07_text_depends_on_order_counterexample` (Registry.lean): Limit of C07: the emitted *text* is not reproducible, because it follows set iteration order.
* `C08_strawberry_ignores_configured_scalars_counterexample` (Strawberry.lean): C08, limit: the Python type configured for a custom scalar is ignored by strawberry modules, even if the user asks not to generate scalars: the switch that counts is the one for directives.
* `C09_enum_import_missing_counterexample` (Registry.lean): Limit of C09: the helper enums derive from `Enum`, but referring to them does not import `enum.Enum`; without `EnumsPlugin` the module uses an undefined name.
* `C09_type_kind_incomplete_counterexample` (Registry.lean): Limit of C09/C51: the helper enum for `__TypeKind` has no members `SCALAR`, `LIST` and `NON_NULL`, although introspection results contain them.
* `C10_dependencies_counterexample` (Fragments.lean): C10 is false for spreads below inline fragments: `A` needs `B`, but the computed dependency set of `A` is empty.
* `C11_document_order_counterexample` (Fragments.lean): Without the hypothesis on inline fragments the document order is wrong: in `inlineDoc`, `A` needs `B` but is generated first.
* `C13_digit_name_counterexample` (Documents.lean): A fragment whose name contains a digit is cut short by the search: although it is registered, building the document fails.
* `C13_string_constant_counterexample` (Documents.lean): A string constant containing `...` is taken for a fragment spread.
* `C13_wrong_fragment_counterexample` (Documents.lean): The same cut can pick another fragment: `...User2` embeds the fragment `User` that nobody spreads, and leaves out `User2`.
* `C15_alias_counterexample` (Documents.lean): `query Q { a { t: __typename } }`: the selection set of `a` does not get the key `__typename`.
* `C15_inline_counterexample` (Documents.lean): `query Q { a { ... on X { b { c } } } }`: the selection set of `b` gets no `__typename`.
* `C19_aliased_typename_counterexample` (ResponsesLimits.lean): Asking for the type name under another name keeps the tool from adding `__typename`, which the generated discriminated union needs: every answer is rejected.
* `C19_interface_fragment_on_union_counterexample` (ResponsesLimits.lean): Spreading a fragment on an interface in a field of a union type: the annotation names a class that does not exist (the fragment's classes are called `NBase`, `NCatch`, `NUser`, `NPost`), so the module cannot be imported.
* `C19_nullable_union_counterexample` (ResponsesLimits.lean): A nullable field of a union type with a single fragment: the server may answer `null`, the class rejects it.
* `C19_uncovered_member_counterexample` (ResponsesLimits.lean): A field of a union type whose fragments do not cover a member: an answer with that member is rejected (there is no catch-all for unions).
* `C21_label_counterexample` (Funcs.lean): C21: the docstring label ignores the alias of the root field: for `{ found: items { title } }` the annotation is `List[ShopFound]` (see the example above), the label names the class `ShopItems`, which does not exist.
* `C21_nonnull_list_counterexample` (Annotations.lean): … and on `[Int]!` it forgets the list and still reports "not optional", whereas the docstring label is right.
* `C21_nonnull_scalar_counterexample` (Annotations.lean): C21 fails in the model as in the code: for a non-null field the annotation helper strips two layers, so a collapsed operation on `Int!` raises instead of producing an annotation …
* `C22_duplicate_parameters_counterexample` (Funcs.lean): C22: two variables that differ only in their spelling become two parameters of the same name, which Python rejects (`SyntaxError: duplicate argument`).
* `C23_variables_counterexample` (Funcs.lean): C23: a variable called `variables` is overwritten by the local dictionary before it is read: the caller's value is not sent.
* `C24_default_counterexample` (Funcs.lean): C24: an expanded variable with a default value: its fields are not parameters, but the body uses them. Every call raises `NameError` (here: the call without arguments is accepted, and fails).
* `C24_nullable_counterexample` (Funcs.lean): C24: an expanded variable that may be null makes the generator fail
* `C25_data_counterexample` (Funcs.lean): C25: a field called `data` is overwritten by the local dictionary: the caller's value is lost.
* `C26_duplicate_setting_counterexample` (Config.lean): C26 counterexample: an `additional_config` entry that repeats a block setting yields a call with a repeated keyword, which Python rejects as a syntax error.
* `C27_arguments_counterexample` (Config.lean): C27, disagreement found: the `Arguments` class of an operation does not follow the configured version; also for pydantic v1 it ends in a v2 dictionary.
* `C27_v1_names_in_v2_counterexample` (Config.lean): C27, disagreement found: the v2 dictionary still uses the v1-only names `orm_mode` and `allow_mutation`, which pydantic v2 does not know (there they are `from_attributes` and `frozen`).
* `C30_header_lost_counterexample` (Merge.lean): Limit of C30: comments before the first statement of the file (licence header) and after the last one are lost.
* `C30_kind_clash_counterexample` (Merge.lean): Why the precondition is there: if the user's function has become a class, the function's body ends up as the body of the class.
* `C31_import_counterexample` (Merge.lean): Why C31 is partial: new imports (and every other statement that is no class or function) of the generated file are dropped, so merged code may use names it does not import.
* `C31_nested_class_counterexample` (Merge.lean): Why C31 is partial: nested classes of a generated class are neither added nor updated, so the `class Meta: document = ...` of an operation keeps the old document for ever.
* `C31_order_counterexample` (Merge.lean): Limit of C31: "before the next generated symbol that existed" holds for the first one in the order of the *existing* file: here `new` belongs before `b` in the generated file, but is put before `c`.
* `C32_duplicate_members_counterexample` (Merge.lean): Limit of C32: a generated class with two members of one name (a property and its setter).
* `C32_kind_clash_counterexample` (Merge.lean): Limit of C32: a function that became a class.
* `C39_gen_writes_nothing_counterexample` (Files.lean): C39 is false of the code: `gen` never writes the generated code. `generate` returns a pair, which is passed to `file.write` after the output file has been truncated: for *every* project whose generation succeeds the output file ends up empty (and, unless `strict`, the error is swallowed).
* `C40_mapping_in_list_counterexample` (Loading.lean): C40 is false of the code for lists: a mapping in a list of several sources *always* fails.
* `C40_url_in_list_counterexample` (Loading.lean): C40 is false of the code for lists: a URL in a list of several sources is also treated as a file pattern, so unless there happen to be matching files loading *always* fails.
* `C41_unsupported_error_counterexample` (Loading.lean): C41 is false of the code: a file with an unsupported extension is rejected, but *never* with a `GenerationError` — the lookup's `KeyError` escapes.
* `C42_download_overwrites_counterexample` (Files.lean): C42 is false of `download`: it overwrites whatever is there without asking, whenever the schema can be loaded.
* `C43_introspection_counterexample` (Referencer.lean): C43, another failure: an operation that uses the introspection field `__schema` (or `__type`) makes the analysis raise `KeyError`, for every schema — these fields are not among the fields of the query type.
* `C43_nested_inline_counterexample` (Referencer.lean): C43 is false of the code for inline fragments directly inside inline fragments: whatever they select is overlooked, for every schema and every selection in them.
* `C44_union_member_enum_counterexample` (SkipUnreferenced.lean): … and with a field of an enum type generation fails (in the default configuration), although the enums plugin ran before: it dropped the enum.
* `C44_union_member_fields_counterexample` (SkipUnreferenced.lean): C44 is false of the code: the member `M` is generated because its union is referenced, but the analysis did not look at its fields. A field of an input type then mentions a class that is not generated.
* `C45_empty_import_counterexample` (Tools.lean): C45 is false of the code in one point: a `typing` import of nothing but `Literal` leaves an empty `typing` import behind, which is not valid Python.
* `C46_union_member_unchecked_counterexample` (Inputs.lean): C46, limit of the check: a `@oneOf` input that is also a member of a discriminated union is generated as a plain class and never validated.
* `C47_colliding_members_counterexample` (Inputs.lean): C47 counterexample: two member types whose class names coincide after styling share one entry, so a value of either is sent under the last field.
* `C49_child_before_parent_counterexample` (Objects.lean): C49, limit: interfaces are emitted in schema order, so a valid schema that declares a child interface before its parent cannot be generated at all.
* `C49_missing_base_fails` (Objects.lean): C49: generation fails when a type inherits from an interface whose base class was never generated.
* `C50_raw_name_counterexample` (Objects.lean): C50 counterexample: the union is assigned under the raw schema name while annotations use the styled one, so for an interface called `None` the module assigns to `None` (a syntax error) and refers to `None_`.
* `C51_keyword_value_counterexample` (Enums.lean): C51 is false of the code for enum values that are Python keywords (GraphQL forbids only `true`, `false` and `null`): whatever the enum, the schema and the configuration, the emitted class is not valid Python.
* `C51_prepend_append_ignored_counterexample` (Enums.lean): The plugin's documentation says that `prepend` and `append` are added to the generated enums. They are ignored.
* `C52_self_argument_counterexample` (Strawberry.lean): C52, limit: an argument called `self` gives the resolver two parameters of that name — a `SyntaxError`.
* `C53_directive_enum_object_counterexample` (Strawberry.lean): C53, limit: an enum value in a directive application is rendered as something that is no literal, and an input object makes generation fail.
* `C53_directive_null_counterexample` (Strawberry.lean): C53, limit: an explicit `null` default of a directive argument is dropped: the argument has no default.
* `C53_directive_number_counterexample` (Strawberry.lean): C53, limit: every number in a directive application is rendered as a *string*.
* `C53_variable_boolean_counterexample` (Strawberry.lean): C53, limit: both boolean defaults of an operation's variable are documented as `False`.
* `C54_concatenation_counterexample` (Loading.lean): C54 is false of the code: files are concatenated without a separator, so a name at the end of one file merges with a keyword at the beginning of the next, and a comment on the last line swallows it.
* `C55_command_fails` (Tools.lean): C55: otherwise it fails; the world is as the command left it.
* `C57_across_counterexample` (ModuleNames.lean): C57, limit: `fragment LookUser on User { id } query Look { user { name } }` — a fragment called like a nested class.
* `C57_base_counterexample` (ClassNames.lean): C57, limit: `{ node { id base { name } } }` — a field `base` of an interface has the class name of the interface's base class.
* `C57_case_counterexample` (ClassNames.lean): C57, limit: `{ userName { name } username { title } }` — fields that differ in case share a class name, although their types differ.
* `C57_inline_counterexample` (ClassNames.lean): C57, limit: `{ node { ... on User { friend { name } } ... on Post { friend { title } } } }` — the same key under two inline fragments.
* `C57_interface_fragment_counterexample` (ModuleNames.lean): C57, limit: `fragment Bits on Node { user: base { name } }` — a key called like an implementing type.
* `C57_same_name_counterexample` (ModuleNames.lean): C57, limit: `fragment Look on User { id } query Look { user { name } }` — a fragment and an operation of the same name.
* `C57_type_counterexample` (ModuleNames.lean): C57, limit: `query Filter { user { id } }` — an operation called like an input type.
* `C57_underscore_counterexample` (ClassNames.lean): C57, limit: `{ user { _next { id } } user_next { id } }` — an underscore in front of a nested key.
* `C57_union_counterexample` (ClassNames.lean): C57, limit: `{ found { ... on Post { title } } other { ... on Post { id } } }` — two unions selected through inline fragments on the same type.
* `C57_union_fragment_counterexample` (ModuleNames.lean): C57, limit: `fragment Hit on Found { ... on User { post: friend { id } } }` — a key called like a member of the union.
* `C59_watch_filter_counterexample` (Loading.lean): C59 is false of the code: the filter looks at what follows the *first* dot of the file name. A document with another dot in its name is ignored, a backup file is not, and a name without a dot raises an exception.
* `C60_arguments_field_counterexample` (ResponseScope.lean): `query Ping($x: Int) { ping }` with the default configuration: the class of the arguments calls `Field`, which is not imported.
* `C60_interface_fragment_counterexample` (ResponseScope.lean): `fragment Bits on Node { id } query Find { search { ...Bits __typename } }` with the default configuration: the annotation of `search` evaluates `Bits`, a class that is not generated.
* `C60_interface_fragment_inline_counterexample` (ResponseScope.lean): `fragment Bits on Node { id } query Find { search { ... on User { ...Bits name } __typename } }`: the class for the inline fragment has the base class `Bits`, which is not generated.
* `C60_lonely_interface_counterexample` (ResponseScope.lean): `query Alone { lonely { id } }` where no type implements the interface, without catch-all classes: `Field` is called but not imported.
* `C60_object_bases_counterexample` (ResponseScope.lean): `query Who { user { name } }` with base classes configured for queries and arguments, and a base class configured for objects that no other plugin imports: the class of the user has a base class that is not imported.
* `C61_input_counterexample` (Shadow.lean): C61 fails for *every* input type with a field that may be omitted and is called (after styling) like the Python type of its scalar, at any nesting depth: `input F { str: [String] }` gives `str: Optional[List[Optional[str]]] = None`, whose annotation is evaluated after `str` is `None`.
* `C61_object_counterexample` (Shadow.lean): C61 fails for object models, `type Row { int: Int ... }` with the default configuration
* `C61_operation_counterexample` (Shadow.lean): C61 fails for operations: `query Q { str row { name } }` with the default configuration
* `C63_factory_counterexample` (ForwardFuncs.lean): With the default configuration, the factory of an input type quotes the type of a field whose type starts with an underscore, which is not generated: reading the annotations of the factory fails.
* `C63_late_interface_fragment_counterexample` (ForwardNames.lean): `fragment A on Node { ... on User { buddy { ...B } } } fragment B on Node { id }`: the spread below the inline fragment is not seen when fragments are ordered, so `B` is generated after `A`, which quotes it; but a fragment on an interface has no class of its own name.
* `C63_underscore_input_counterexample` (ForwardNames.lean): With the default configuration, a field of a generated input type whose type starts with an underscore quotes a class that is not generated.
* `C64_crash_truncates_counterexample` (Files.lean): C64 is false of the code: output files are truncated before they are rewritten, so *every* successful run passes through a state — a crash point — in which the output file is empty, neither old nor new.
* `C67_bases_not_imported_counterexample` (Strawberry.lean): C67, limit: the configured base classes of inputs are used but never imported.
* `C67_directives_off_counterexample` (StrawberryScope.lean): C67, limit: with `generate_directives: false` the directives are still applied, but not defined.
* `C67_enum_value_counterexample` (StrawberryScope.lean): C67, limit: an enum value in the application of a directive is emitted as the *text* of the syntax node, which names nothing (the model keeps the leading name of that text; the text as a whole is not even an expression).
* `C67_rebuild_counterexample` (Strawberry.lean): C67, limit: classes with quoted annotations are registered for `model_rebuild()`, a method of pydantic models that strawberry classes do not have: the module of the example raises `AttributeError` when it is imported.
* `C68_nullable_default_counterexample` (Strawberry.lean): C68, limit: whenever an argument of nullable type has a default, GraphQL allows `null` but the annotation of the parameter rejects it.
* `C69_colliding_imports_counterexample` (Reproducible.lean): C69 fails when two imports share their last component, for instance two scalars mapped to `a.Date` and `b.Date`: whatever the rest of the project is, there is a process in which the name stands for the one, and a process in which it stands for the other.
* `C70_hides_class_counterexample` (FunctionNames.lean): C70 fails for operations whose class has a name without capitals: without a prefix, the function has the name of the class of its operation, so the class is replaced by the function — which then hands itself to the proxy.
* `C70_keyword_counterexample` (FunctionNames.lean): C70 fails for keywords: unlike the names of attributes and parameters, the names of functions are not escaped. `query Import` gives `def import`, `query Wait` gives `async def await` — the module is not valid Python.
* `C70_prefix_counterexample` (FunctionNames.lean): C70 fails for the default prefix: the asynchronous function of `Like` and the synchronous one of `Alike` share a name.
* `C70_spelling_counterexample` (FunctionNames.lean): C70 fails for operations that differ only in spelling: `GetItems` and `get_items` are both called through `get_items` — the second function silently replaces the first.
* `C71_builtin_import_counterexample` (Configured.lean): C71 fails for the other builtins: `object` as a base or a marker is accepted like every builtin, but only seven builtins are exempt from imports. For all others the module contains `import object`, which fails when it is executed.
* `C71_malformed_path_counterexample` (Configured.lean): C71 fails for malformed paths: a path that ends in a dot is accepted, and the module then contains `from m import ` with nothing behind it.
* `C72_aliased_typename_counterexample` (Kept.lean): An aliased `__typename` is not carried either: `query Look { node { id kind: __typename } }`.
* `C72_inline_in_object_fragment_counterexample` (Kept.lean): … for an inline fragment in a fragment on an object type: it is ignored. ``` fragment UserBits on User { id ... on User { name } } query Look { node { id ...UserBits } } ```
* `C72_merged_subselections_counterexample` (Kept.lean): … for a field selected both in a fragment and beside it with different sub-selections: the declaration in the class hides the inherited one. ``` fragment UserBits on User { friend { ... on Post { title } } } query Look { node { id ...UserBits ... on User { friend { id } } } } ```
* `C72_nested_inline_counterexample` (Kept.lean): … for an inline fragment inside an inline fragment, on an interface: the inner one is ignored. `query Look { node { id ... on User { ... on User { name } } } }`
* `C72_nested_inline_in_union_counterexample` (Kept.lean): … and on a union. `query Look { found { ... on User { ... on Node { id } } } }`
* `C72_spread_in_inline_counterexample` (Kept.lean): C72 fails for a fragment spread inside an inline fragment on a field of an interface type: the spread is ignored. ``` fragment UserBits on User { name } query Look { node { id ... on User { ...UserBits } } } ```
* `C72_two_fragments_at_union_counterexample` (Kept.lean): … for two fragments that apply to the same member of a union: there are two classes for the member, each lacking the fields of the other. ``` fragment UserBits on User { name } query Look { found { ...UserBits ... on User { id } } } ```
* `C72_underscore_counterexample` (Kept.lean): … for a response key with a leading underscore: the attribute is private to pydantic. `query Look { node { _id: id } }`
* `C72_union_fragment_at_interface_counterexample` (Kept.lean): … for a fragment on a union that is spread at a field of an interface type: the implementing classes do not get its fields. ``` fragment Hit on Found { ... on User { name } } query Look { node { id ...Hit } } ```
* `C73_additional_base_counterexample` (Hierarchy.lean): Even for a document that meets all hypotheses of the theorem, C73 fails if an additional base of a type is also a base of all objects: the base is named twice. (`additional_bases: {User: [pydantic.BaseModel]}`, `query Look { found { ... on User { name } } }`)
* `C73_duplicate_spread_counterexample` (Hierarchy.lean): C73 fails if a fragment is spread twice beside each other, which GraphQL allows: the class names a base twice. `query Look { node { id ...Names ...Names } }`
* `C73_hidden_spread_counterexample` (Hierarchy.lean): C73 fails for a fragment hidden below an inline fragment of another one that is defined before: the fragments are generated in that order. ``` fragment Hit on Found { ... on User { ...Names } } fragment Names on User { name } query Look { found { ...Hit } } ```
* `C73_related_spreads_counterexample` (Hierarchy.lean): C73 fails if a fragment is spread before another one that spreads it: there is no method resolution order for `class LookNodeBaseUser(Names, More, LookNodeBase, BaseModel)`. ``` fragment Names on User { name } fragment More on User { ...Names id } query Look { node { id ...Names ...More } } ```
* `C73_related_spreads_in_fragment_counterexample` (Hierarchy.lean): The order in which they have to be spread is not the same in fragments on objects, where the bases are reversed. ``` fragment Names on User { name } fragment More on User { ...Names id } fragment All on User { ...More ...Names } query Look { node { id ...All } } ```
* `C73_union_fragment_counterexample` (Hierarchy.lean): C73 fails for a fragment on a union that is spread inside an inline fragment: its name is bound to a `Union`, which is no class. ``` fragment Hit on Found { ... on User { name } } query Look { found { ... on User { ...Hit } } } ```
* `C74_early_functions_counterexample` (FuncScope.lean): The order of the plugins matters. If the functions come before the operations, the function for `query Look { pong { size } }` evaluates the class of its result, which is defined below it.
* `C74_optional_counterexample` (FuncScope.lean): An extra keyword parameter whose default is `None` is annotated `Optional[...]`; the plugin does not import `Optional`. The module for `query Ping { ping }` with such a parameter cannot be imported.
* `C75_rath_counterexample` (Templates.lean): The project made by `turms init --template rath`, left as it is, generates for the schema `type Query { ping: Int! }` and the document `query Ping { ping }` a module that cannot be imported: the parameter `rath: Optional[Rath] = None` is annotated with a name that nothing imports.
* `C76_coercion_counterexample` (Rebuild.lean): `query Ping($k: Color) { ping }` with a coercion for the enum `Color` among those for inputs: the same happens, although nothing is left out.
* `C76_enum_counterexample` (Module.lean): `query Kinds { __schema { types { kind } } }` with the operations plugin alone: the helper class for `__TypeKind` is derived from `Enum`, which nothing imports.
* `C76_factory_counterexample` (Rebuild.lean): The inputs plugin leaves out `_Inner`. The factory for `Outer` refers to it, and a class called `SHOULD_NOT_BE_USED` is rebuilt.
* `C76_rebuild_counterexample` (Module.lean): `query Look { node { level } }` with the operations plugin alone: the class that is rebuilt for the field of an interface does not exist (the classes are called `LookNodeBase`, `LookNodeBaseItem`, …).
* `C76_union_alias_counterexample` (Rebuild.lean): `fragment Bits on Thing { ... on Item { level } }` with the fragments plugin before the enums plugin: the module ends with `Bits.model_rebuild()`, but `Bits` is no class: it is `Union[BitsItem, BitsNote]`.
* `C76_variable_counterexample` (Rebuild.lean): `query Look($k: __TypeKind) { node { __typename } }`: the class that is rebuilt has an empty name.
* `C77_anonymous_counterexample` (GenerableLimits.lean): `{ ping }`: an anonymous operation
* `C77_bare_inline_counterexample` (GenerableLimits.lean): `query A { node { ... { id } } }`: an inline fragment without type condition
* `C77_deep_variable_counterexample` (GenerableFuncs.lean): `query A($u: String) { shelf { box { size(unit: $u) } } }`: a variable at depth three
* `C77_directive_enum_counterexample` (GenerableServer.lean): `directive @paint(colour: Colour) on OBJECT`, where `Colour` is an enum of the schema: no module.
* `C77_directive_object_counterexample` (GenerableServer.lean): `type Item @limit(range: {low: 1})`: no module.
* `C77_directive_scalar_counterexample` (GenerableServer.lean): `directive @sign(token: Token) on OBJECT`, where `Token` is a scalar of the schema: no module, as the classes of directives are generated before the scalars. Without the directive the scalar is fine.
* `C77_enum_default_counterexample` (GenerableLimits.lean): `query A($c: Color = RED) { ping }`: an enum value as default
* `C77_expand_optional_counterexample` (GenerableFuncs.lean): `query A($f: Filter) { ping }`, where `f` is to be expanded: only required variables can be
* `C77_expand_scalar_counterexample` (GenerableFuncs.lean): `query A($n: Int!) { ping }`, where `n` is to be expanded
* `C77_factory_counterexample` (GenerableFuncs.lean): `input Paint { c: _Hue }`, without `force_plugin_order` and with the option to skip enums called like this: the class of the input is generated, its factory is not
* `C77_fragment_name_counterexample` (GenerableLimits.lean): `fragment User_b on User { … } query A { user { ...User_b } }`: of the name of the fragment only the letters before the first other character are read
* `C77_helper_enum_counterexample` (GenerableFuncs.lean): `enum Deprecated { YES } query A { status }`: an enum called like a helper of turms
* `C77_inline_object_counterexample` (GenerableLimits.lean): `query A { user { ... on User { name } } }`: an inline fragment on an object
* `C77_inline_spread_counterexample` (GenerableLimits.lean): `fragment First on User { friend { ... on User { ...Second } } … } fragment Second on User { … }`: the dependency is overlooked, and `First` is generated before `Second`
* `C77_interface_interface_counterexample` (GenerableLimits.lean): `query A { node { ... on Node { id } } }`: an inline fragment on the interface itself
* `C77_interface_order_counterexample` (GenerableServer.lean): `interface Item implements Node` declared before `interface Node`: no module.
* `C77_list_default_counterexample` (GenerableLimits.lean): `query A($c: [Int] = [1]) { ping }`: a list as default
* `C77_null_default_counterexample` (GenerableFuncs.lean): `query A($n: Int = null) { ping }`
* `C77_parent_interface_counterexample` (GenerableFuncs.lean): `fragment Bits on Entity { … } query A { node { ...Bits } }`, where `Node` implements the interface `Entity`: the field is of another interface than the fragment
* `C77_root_spread_counterexample` (GenerableLimits.lean): `fragment Pings on Query { ping __typename } query A { ...Pings }`: a fragment at the root
* `C77_scalar_counterexample` (GenerableLimits.lean): `scalar Instant`, without a definition in the configuration
* `C77_scalars_need_directives_counterexample` (GenerableServer.lean): With `generate_directives: false` the scalars of the schema are not generated, and a field of such a type is an error: the flag for the scalars is never read.
* `C77_skipped_enum_counterexample` (GenerableLimits.lean): `input Paint { c: _Hue }`, with the option to skip enums called like this
* `C77_typename_function_counterexample` (GenerableFuncs.lean): `query A { user { __typename } }`: only the type of an object
* `C77_underscore_input_counterexample` (GenerableLimits.lean): `input _Range { from: String } query A($f: _Range) { ping }`: inputs called like this are skipped by default
* `C77_unimplemented_interface_counterexample` (GenerableServer.lean): `interface Node { id: ID }`, implemented by no type yet: no module from the objects plugin, with the default configuration.
* `C77_union_fragment_counterexample` (GenerableLimits.lean): `fragment Bits on User { … } fragment Any on Found { ...Bits … }`: a fragment on a member, in a fragment on a union
* `C77_union_interface_counterexample` (GenerableLimits.lean): `query A { found { ... on Node { id } } }`: an interface of the members of a union
* `C77_union_typename_counterexample` (GenerableLimits.lean): `query A { found { __typename } }`: only the type of a union
* `C77_wrapper_counterexample` (GenerableLimits.lean): `enum PayMethod { CARD } input Pay @oneOf { method: PayMethod }`: the wrapper of the field is called like the enum
* `C78_description_counterexample` (FuncDocs.lean): An argument's description is looked up under the name of the variable: `count(first: $limit)` leaves `$limit` without description, although `first` has one.
* `C78_expanded_counterexample` (FuncDocs.lean): Fields of an expanded variable are documented in the order of the variables, but are the first parameters; and the optional ones are not marked.
* `C79_catch_all_counterexample` (Delivers.lean): With the catch-all class (the default), an object of a known type that does not deliver what is selected for this type is not refused: it is taken for an object of an unknown type. Here a user's name is a list. `query Look { node { id ... on User { name } } }`
* `C79_inline_in_object_fragment_counterexample` (Delivers.lean): … for an inline fragment in a fragment on an object type: it is ignored. ``` fragment UserBits on User { name ... on User { id } } query Look { found { ...UserBits } } ```
* `C79_nested_inline_counterexample` (Delivers.lean): … for an inline fragment inside an inline fragment: the inner one is ignored. `query Look { found { ... on User { name ... on Node { id } } } }`
* `C79_two_fragments_at_union_counterexample` (Delivers.lean): C79 fails for two fragments that apply to the same member of a union: a user without `id` is taken for the class of the other fragment. ``` fragment UserBits on User { name } query Look { found { ...UserBits ... on User { id } } } ```
* `C80_expanded_counterexample` (Evolution.lean): C80 fails for a variable listed in `expand_input_types`: the schema is only added to, and a new field of the input is a new parameter of the functions.
* `C80_implementer_counterexample` (Evolution.lean): C80 fails for a new implementing type: one is added to an interface that the documents select, no old type changes, and the documents get other classes.
* `C81_order_counterexample` (Compose.lean): C81 fails for spreads below inline fragments: code is generated for the document in one order, none in the other.
* `C81_same_name_counterexample` (Compose.lean): C81 fails when a query and a mutation have the same name (which turms accepts): the function of the query is annotated with what the mutation returns.
* `C82_oneof_counterexample` (Shape.lean): The pydantic version does change the interface of `@oneOf` inputs: with pydantic 2 the members of `Direct` are used as they are, with pydantic 1 each of them is wrapped in a class of its own.
* `C83_defaulted_field_counterexample` (InputValues.lean): C83: `size: Int! = 10` is generated as a field that may be `None`, which is sent as null; the server rejects that, since the default value only applies when the field is left out.
* `C84_dropped_union_counterexample` (Skip.lean): C84 is false of the code for a member of a union that is left out: its class is not only kept, it changes — the discriminator field is gone.
* `C84_member_enum_counterexample` (Skip.lean): … and when the fields of a member of a needed union need an enum nothing else needs, generation fails with the option although it succeeds without.
* `C85_hidden_proxy_counterexample` (Twins.lean): Without the last condition the claim fails: a variable called like one of the two proxies hidesName that proxy in both functions, so that only the other one works.
* `C86_disclaimer_last_counterexample` (Regenerate.lean): The order of the processors matters: with the disclaimer added after merging, it is added on every run; after `n + 1` runs the file has `n + 1` of them, although nothing has changed.
* `C87_defaulted_variable_counterexample` (Variables.lean): C87: the field for `$n: Int! = 3` may be `None`, which is sent as null; the server rejects that, since the default value only applies when the variable is left out.
* `C88_oneOf_counterexample` (TypedCalls.lean): C88: if the variable is expanded, the fields of a `@oneOf` input are independent optional parameters. The call without arguments is well typed and sends `{"pick": {}}`, which no server accepts.
* `C89_underscore_counterexample` (RoundTrip.lean): The only root field has a response key with a leading underscore: the attribute is private to pydantic, so the function finds nothing to hand back, whatever the server answers. `query Find { _hit: node { id } }`
* `C90_keyword_argument_counterexample` (StrawberryDirectives.lean): C90, limit: `directive @tag(from: String!)` — the field is called `from_`, but the application passes `from`, which is not even Python.
* `C90_omitted_argument_counterexample` (StrawberryDirectives.lean): C90, limit: `directive @tag(note: String)`, applied as `@tag` — GraphQL allows to leave out the argument, but the field has no default.
* `C92_required_counterexample` (Conditional.lean): A conditional field that is not nullable: the answer without it is rejected.
* `C95_hash_counterexample` (OperationDocs.lean): What a reader may not expect: a `#` inside a string counts as a comment, and a comment that mentions `#12` is cut there.
* `C95_line_separator_counterexample` (OperationDocs.lean): A line separator that only Python knows shifts the lines read: here one in the comment above the operation makes part of that comment its documentation, instead of the comment inside.

## Axioms

All 473 theorems named in MANIFEST.json, by the axioms Lean reports for them:

* **none** (5): `C03_chain_cons`, `C03_chain_order`, `C28_rules_in_order`, `C36_composition`, `C36_failure_origin`
* **propext** (23): `C02_never_keyword`, `C09_type_kind_incomplete_counterexample`, `C11_document_order_counterexample`, `C15_alias_counterexample`, `C15_inline_counterexample`, `C26_duplicate_setting_counterexample`, `C27_v1_names_in_v2_counterexample`, `C30_header_lost_counterexample`, `C30_kind_clash_counterexample`, `C31_import_counterexample`, `C31_nested_class_counterexample`, `C31_order_counterexample`, `C32_duplicate_members_counterexample`, `C32_kind_clash_counterexample`, `C34_run`, `C36_first_failure`, `C43_nested_inline_counterexample`, `C45_rest_unchanged`, `C53_directive_enum_object_counterexample`, `C53_directive_null_counterexample`, `C53_variable_boolean_counterexample`, `C68_nullable_default_counterexample`, `C95_comments_determined`
* **propext, Quot.sound** (17): `C15_idempotent`, `C15_nothing_else_changes`, `C43_introspection_counterexample`, `C47_serialize_member`, `C47_serialize_one_key`, `C52_every_argument_kept`, `C52_self_argument_counterexample`, `C53_default_literal`, `C53_resolver_default_literal`, `C55_command`, `C55_command_fails`, `C55_ruff`, `C71_importable`, `C82_classes`, `C82_functions`, `C95_comments_partial`, `C95_position_independent_partial`
* **propext, Classical.choice, Quot.sound** (428): `C01_first_char`, `C01_fixpoint`, `C01_idempotent`, `C01_keeps_input`, `C01_no_upper`, `C01_not_injective_counterexample`, `C01_only_underscores_added`, `C01_snake_exact`, `C01_valid_identifier`, `C02_discriminator_keyword_counterexample`, `C02_discriminator_lost_counterexample`, `C02_discriminator_twice_counterexample`, `C02_fragments`, `C02_input_field_alias`, `C02_inputs_partial`, `C02_object_field_alias`, `C02_objects`, `C02_operations`, `C02_response_key`, `C03_append_injective`, `C03_capitalize`, `C03_capitalize_idempotent`, `C04_at_most_once`, `C04_class_names_collide_counterexample`, `C04_interfaces`, `C04_kinds_collide_counterexample`, `C04_name_is_stable`, `C04_second_registration_fails`, `C05_bare_reference_is_defined`, `C05_helper_shadows_enum_counterexample`, `C05_no_forward_fails`, `C05_parent_is_not_checked_counterexample`, `C05_quoted_reference_is_rebuilt`, `C06_rebuild_section`, `C06_versions_agree`, `C07_binds_exactly`, `C07_builtin_bytes_imported_counterexample`, `C07_hash_seed_independent`, `C07_never_imports_builtins`, `C07_no_duplicates`, `C07_registered_is_imported`, `C07_text_depends_on_order_counterexample`, `C08_annotation_is_imported`, `C08_resolution`, `C08_strawberry_ignores_configured_scalars_counterexample`, `C09_enum_import_missing_counterexample`, `C09_helpers_exactly_used_partial`, `C09_unset_override`, `C10_dependencies_counterexample`, `C10_dependencies_partial`, `C11_best_effort`, `C11_document_order`, `C11_topological_order`, `C12_document_fragments`, `C12_order_is_permutation`, `C13_digit_name_counterexample`, `C13_self_contained_partial`, `C13_string_constant_counterexample`, `C13_wrong_fragment_counterexample`, `C14_missing_iff_partial`, `C15_fragment_string`, `C15_typename_everywhere_partial`, `C16_coerced_variable_annotation_exact`, `C16_input_annotation_exact`, `C16_parameter_annotation_exact`, `C16_variable_annotation_exact`, `C17_input_field_requiredness`, `C17_plugin_classes`, `C18_leaf_field_exact`, `C19_aliased_typename_counterexample`, `C19_document_accepted_partial`, `C19_interface_fragment_on_union_counterexample`, `C19_nullable_union_counterexample`, `C19_responses_accepted_partial`, `C19_sparse_document_partial`, `C19_sparse_responses_partial`, `C19_uncovered_member_counterexample`, `C20_object_field_exact`, `C20_one_class_per_type`, `C20_plugin_classes`, `C21_label_counterexample`, `C21_nonnull_list_counterexample`, `C21_nonnull_scalar_counterexample`, `C21_return_annotation`, `C22_duplicate_parameters_counterexample`, `C22_signatures`, `C23_calls_perform_operation`, `C23_payload`, `C23_variables_counterexample`, `C24_default_counterexample`, `C24_expanded_inputs_partial`, `C24_nullable_counterexample`, `C25_data_counterexample`, `C25_factories`, `C26_input_class`, `C26_object_class`, `C26_settings_exact`, `C26_unnamed_class`, `C27_arguments_counterexample`, `C27_versions_agree`, `C28_rules_exact`, `C28_unknown_rejected`, `C29_input_parameters`, `C29_input_variables`, `C29_scalar_parameters`, `C29_scalar_variables`, `C30_keeps_user_code`, `C31_all_present_partial`, `C31_new_members_once_partial`, `C31_new_symbols_once_partial`, `C31_placement_partial`, `C32_idempotent_partial`, `C33_self_merge_partial`, `C35_module_sections`, `C35_plugin_failure`, `C35_succeeds_iff`, `C36_code`, `C37_failed_generation_untouched`, `C37_isolation`, `C37_projects_in_order`, `C38_exit_status`, `C38_failure_is_generation`, `C39_failed_generation_partial`, `C39_gen_writes_nothing_counterexample`, `C40_glob_lists_partial`, `C40_mapping_in_list_counterexample`, `C40_single_source`, `C40_singleton_list`, `C40_url_in_list_counterexample`, `C40_urls`, `C41_all_projects`, `C41_command`, `C41_command_errors`, `C41_discovery`, `C41_selection`, `C41_supported`, `C41_unsupported_error_counterexample`, `C42_download_overwrites_counterexample`, `C42_download_partial`, `C42_init_untouched`, `C42_init_writes`, `C42_paths`, `C43_inputs`, `C43_leaves_partial`, `C43_terminates`, `C44_needed_kept_partial`, `C44_nothing_else_kept`, `C44_union_member_enum_counterexample`, `C44_union_member_fields_counterexample`, `C45_empty_import_counterexample`, `C45_names`, `C45_no_empty_import_partial`, `C45_same_names`, `C46_error_names_input`, `C46_invalid_oneof_rejected`, `C46_union_member_unchecked_counterexample`, `C46_validation_exact`, `C47_colliding_members_counterexample`, `C47_direct_union_table`, `C47_wrapper_classes`, `C48_classes_before_aliases`, `C48_deselected_absent`, `C48_each_selected_input_once`, `C49_bases_before_class`, `C49_bases_exact`, `C49_child_before_parent_counterexample`, `C49_generation_succeeds`, `C49_missing_base_fails`, `C50_raw_name_counterexample`, `C50_references_meet_alias_partial`, `C50_unimplemented`, `C50_union_exact`, `C51_documentation`, `C51_each_kept_enum_once`, `C51_keyword_value_counterexample`, `C51_members`, `C51_prepend_append_ignored_counterexample`, `C52_resolver_signatures`, `C53_directive_literal_partial`, `C53_directive_number_counterexample`, `C54_concatenation_counterexample`, `C54_listing_order`, `C54_tokens_partial`, `C55_ruff_commands`, `C56_annotation_markers`, `C56_documentation`, `C56_object_field_comment`, `C57_across_counterexample`, `C57_base_counterexample`, `C57_case_counterexample`, `C57_distinct_classes_partial`, `C57_document_classes_partial`, `C57_fragment_classes_partial`, `C57_inline_counterexample`, `C57_interface_fragment_counterexample`, `C57_module_classes_partial`, `C57_same_name_counterexample`, `C57_type_counterexample`, `C57_underscore_counterexample`, `C57_union_counterexample`, `C57_union_fragment_counterexample`, `C58_import_string`, `C58_rejected`, `C59_file_name`, `C59_other_names`, `C59_watch_filter_counterexample`, `C59_watch_filter_partial`, `C60_arguments_field_counterexample`, `C60_enums_resolve`, `C60_inputs_fresh`, `C60_inputs_resolve`, `C60_interface_fragment_counterexample`, `C60_interface_fragment_inline_counterexample`, `C60_lonely_interface_counterexample`, `C60_module_resolves_closed_partial`, `C60_module_resolves_partial`, `C60_object_bases_counterexample`, `C60_object_bases_imported`, `C60_objects_resolve`, `C60_responses_resolve_partial`, `C61_input_counterexample`, `C61_inputs_partial`, `C61_module_partial`, `C61_object_counterexample`, `C61_objects_partial`, `C61_operation_counterexample`, `C62_discriminators_marked_set`, `C62_member_literals`, `C62_union_members_exact`, `C63_factory_counterexample`, `C63_functions_closed_partial`, `C63_functions_partial`, `C63_late_interface_fragment_counterexample`, `C63_module_closed_partial`, `C63_module_partial`, `C63_objects_partial`, `C63_underscore_input_counterexample`, `C64_crash_states_partial`, `C64_crash_truncates_counterexample`, `C65_watch_history`, `C65_watch_round`, `C66_enums_exact`, `C66_enums_marked`, `C66_inputs_exact`, `C66_inputs_marked`, `C66_one_class_per_type`, `C66_scalars`, `C66_scalars_marked`, `C66_types_marked`, `C66_values_exact`, `C67_bases_not_imported_counterexample`, `C67_directives_off_counterexample`, `C67_enum_value_counterexample`, `C67_names_partial`, `C67_rebuild_counterexample`, `C68_argument_annotations_partial`, `C69_colliding_imports_counterexample`, `C69_same_content_partial`, `C69_same_meaning_partial`, `C69_same_outcome`, `C70_distinct_partial`, `C70_hides_class_counterexample`, `C70_identifiers_partial`, `C70_keyword_counterexample`, `C70_names`, `C70_prefix_counterexample`, `C70_spelling_counterexample`, `C71_accepted_iff`, `C71_bases`, `C71_builtin_import_counterexample`, `C71_helpers`, `C71_malformed_path_counterexample`, `C71_scalars`, `C71_sentinel_pair`, `C72_aliased_typename_counterexample`, `C72_document_kept_partial`, `C72_inline_in_object_fragment_counterexample`, `C72_merged_subselections_counterexample`, `C72_nested_inline_counterexample`, `C72_nested_inline_in_union_counterexample`, `C72_requested_data_kept_partial`, `C72_spread_in_inline_counterexample`, `C72_two_fragments_at_union_counterexample`, `C72_underscore_counterexample`, `C72_union_fragment_at_interface_counterexample`, `C73_additional_base_counterexample`, `C73_class_statements_execute_partial`, `C73_duplicate_spread_counterexample`, `C73_hidden_spread_counterexample`, `C73_related_spreads_counterexample`, `C73_related_spreads_in_fragment_counterexample`, `C73_union_fragment_counterexample`, `C74_early_functions_counterexample`, `C74_functions_resolve_partial`, `C74_optional_counterexample`, `C75_functions_partial`, `C75_init_loads`, `C75_rath_counterexample`, `C76_assembly_partial`, `C76_coercion_counterexample`, `C76_documents_rebuilt_partial`, `C76_enum_counterexample`, `C76_factory_counterexample`, `C76_module_partial`, `C76_module_rebuilds_classes_partial`, `C76_rebuild_counterexample`, `C76_rebuilt_classes_partial`, `C76_rebuilt_partial`, `C76_strawberry_partial`, `C76_union_alias_counterexample`, `C76_variable_counterexample`, `C77_anonymous_counterexample`, `C77_bare_inline_counterexample`, `C77_classes_partial`, `C77_deep_variable_counterexample`, `C77_directive_enum_counterexample`, `C77_directive_object_counterexample`, `C77_directive_scalar_counterexample`, `C77_enum_default_counterexample`, `C77_expand_optional_counterexample`, `C77_expand_scalar_counterexample`, `C77_factory_counterexample`, `C77_fragment_name_counterexample`, `C77_generation_succeeds_partial`, `C77_helper_enum_counterexample`, `C77_inline_object_counterexample`, `C77_inline_spread_counterexample`, `C77_interface_interface_counterexample`, `C77_interface_order_counterexample`, `C77_list_default_counterexample`, `C77_module_executes_partial`, `C77_null_default_counterexample`, `C77_objects_partial`, `C77_parent_interface_counterexample`, `C77_root_spread_counterexample`, `C77_scalar_counterexample`, `C77_scalars_need_directives_counterexample`, `C77_shipped_stylers`, `C77_skipped_enum_counterexample`, `C77_strawberry_partial`, `C77_typename_function_counterexample`, `C77_underscore_input_counterexample`, `C77_unimplemented_interface_counterexample`, `C77_union_fragment_counterexample`, `C77_union_interface_counterexample`, `C77_union_typename_counterexample`, `C77_wrapper_counterexample`, `C78_description_counterexample`, `C78_expanded_counterexample`, `C78_factory_documentation`, `C78_factory_parameters`, `C78_function_documentation_partial`, `C78_heading`, `C78_returns_partial`, `C79_accepted_responses_deliver_partial`, `C79_catch_all_counterexample`, `C79_document_delivers_partial`, `C79_inline_in_object_fragment_counterexample`, `C79_nested_inline_counterexample`, `C79_two_fragments_at_union_counterexample`, `C80_documents_only`, `C80_documents_unchanged`, `C80_expanded_counterexample`, `C80_implementer_counterexample`, `C81_compositional`, `C81_order_counterexample`, `C81_removal`, `C81_reordering`, `C81_same_name_counterexample`, `C82_interface`, `C82_module`, `C82_oneof_counterexample`, `C83_defaulted_field_counterexample`, `C83_legal_can_be_sent`, `C83_sent_is_legal_partial`, `C83_variable_can_be_sent`, `C83_variable_sent_is_legal_partial`, `C84_dropped_union_counterexample`, `C84_member_enum_counterexample`, `C84_only_removes_partial`, `C85_hidden_proxy_counterexample`, `C85_same_request`, `C85_twins`, `C86_disclaimer_last_counterexample`, `C86_fresh_partial`, `C86_stable_partial`, `C86_user_code_survives`, `C87_accepted_variables_can_be_sent`, `C87_defaulted_variable_counterexample`, `C87_sent_variables_are_accepted_partial`, `C88_accepted_variables_are_reached_partial`, `C88_oneOf_counterexample`, `C88_typed_calls_are_accepted_partial`, `C88_typed_factories_partial`, `C89_answers_reach_the_caller_partial`, `C89_handed_back_delivers_partial`, `C89_underscore_counterexample`, `C90_applications_accepted_partial`, `C90_directive_classes`, `C90_keyword_argument_counterexample`, `C90_omitted_argument_counterexample`, `C91_module_partial`, `C91_parses_back`, `C91_reads_back`, `C91_sent_documents_partial`, `C92_conditional_partial`, `C92_required_counterexample`, `C93_inputs`, `C93_interface_fragments`, `C93_object_fragments`, `C93_objects`, `C93_operations`, `C93_selections`, `C93_union_fragments`, `C94_catchall`, `C94_inputs`, `C94_interface_fragments`, `C94_object_fragments`, `C94_objects`, `C94_oneof_wrappers`, `C94_operations`, `C94_selections`, `C94_strawberry`, `C94_union_fragments`, `C94_union_selections`, `C95_docstring_partial`, `C95_hash_counterexample`, `C95_line_separator_counterexample`
