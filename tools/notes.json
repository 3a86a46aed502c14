{
 "C01": {
  "status": "proved",
  "note": "Exact characterisation plus the single clauses; the styler is not injective (counterexample), which the property does not claim."
 },
 "C02": {
  "status": "partial",
  "note": "Proved for every attribute of every class of the objects, fragments and operations plugins (nested classes and Arguments included), for every chain of stylers and every registry state: the attribute is the styled form of its wire name, has an alias exactly if the two differ, and is never a keyword. Proved likewise for input types, and for each field the wire name is the GraphQL name (C02_input_field_alias, C02_object_field_alias, C02_response_key). False for the discriminators of @unionElementOf: three universal counterexamples (a keyword is declared as it is; the discriminator is declared twice under one wire name; another field is lost)."
 },
 "C03": {
  "status": "proved",
  "note": ""
 },
 "C04": {
  "status": "proved",
  "note": "Also shown: class names of different definitions may coincide (not part of the property)."
 },
 "C05": {
  "status": "proved",
  "note": "All clauses proved for every history; counterexamples record that parents are not checked to be classes and that helper enums shadow schema enums."
 },
 "C06": {
  "status": "proved",
  "note": ""
 },
 "C07": {
  "status": "proved",
  "note": "For every iteration order of every set involved."
 },
 "C08": {
  "status": "proved",
  "note": ""
 },
 "C09": {
  "status": "partial",
  "note": "Helpers are exactly the used ones, each once. The clause 'together with the imports their definition needs' is false: counterexample C09_enum_import_missing_counterexample."
 },
 "C10": {
  "status": "partial",
  "note": "Termination and soundness for every document; exactness when no spread is below an inline fragment. The full statement is false (counterexample)."
 },
 "C11": {
  "status": "proved",
  "note": "Also lifted to documents (with the inline fragment restriction of C10, counterexample given)."
 },
 "C12": {
  "status": "proved",
  "note": "Termination = the loop bound of the model is never reached."
 },
 "C13": {
  "status": "partial",
  "note": "Proved for fragment names of letters only and literals without '...'; false otherwise (counterexamples). The parser/printer round trip is a hypothesis here (third party); C91_parses_back proves it for every parser that reads by the grammar."
 },
 "C14": {
  "status": "partial",
  "note": "Same restriction as C13."
 },
 "C15": {
  "status": "partial",
  "note": "Kept-in-order, at-most-once and idempotence are unrestricted; presence everywhere excludes inline fragments and aliased __typename, where it is false (counterexamples)."
 },
 "C16": {
  "status": "proved",
  "note": "exactness of all four annotation generators used in argument position (input model fields, operation variables with and without coercion, factory/expanded parameters), by structural induction on the type; hypotheses only exclude leaf classes that themselves accept None and stylers that return the empty string"
 },
 "C17": {
  "status": "proved",
  "note": "for every reachable registry state and every input field"
 },
 "C18": {
  "status": "proved",
  "note": "C18_leaf_field_exact: for every schema, state, field of scalar or enum type under any nesting of list and non-null, the declaration generated for a selected field accepts exactly the legal GraphQL values of the field's type, is keyed by the response key, and has default None iff the type is nullable. Quantifies over every registry state, so over every position of the field in a document. (For fields of composite type the wrapper part of the walk is shared; what their inner models accept is C19.)"
 },
 "C19": {
  "status": "partial",
  "note": "C19_responses_accepted_partial: for every schema and document, if the fragments and operations plugins run through and every selection set is of a supported form (Spec/Responses: Supported), every response a spec-conforming server may return for an operation is accepted by the generated model, by induction over nested selections, fragment definitions (in dependency order) and operations. C19_document_accepted_partial: the same without assumptions about the generated module (distinct class names follow from C57). Missing: the selection forms outside Supported. That those forms are really broken in the code is proved: C19_nullable_union_counterexample (nullable union field with one inline fragment rejects null), C19_uncovered_member_counterexample (union members without a fragment are rejected), C19_aliased_typename_counterexample (an aliased __typename at an interface is lost, so the discriminator is missing), C19_interface_fragment_on_union_counterexample (the annotation names a class that does not exist)."
 },
 "C20": {
  "status": "proved",
  "note": "Field level: C20_* in Props/Annotations. Plugin level: C20_plugin_classes (fields of every generated class are exactly the schema fields, same order, key, optionality and accepted values) and C20_one_class_per_type."
 },
 "C21": {
  "status": "partial",
  "note": "Return annotation = annotation the operation class declares for its only field, proved for every wrapping when the operations plugin ran before (C21_return_annotation). The docstring label is wrong for aliased root fields, and the fallback used without the operations plugin is wrong: counterexamples."
 },
 "C22": {
  "status": "proved",
  "note": "Every generated function: no parameter without default after one with default, parameters and defaults exactly the intended ones. Outside the statement: two variables with the same styled name give duplicate parameters (counterexample recorded)."
 },
 "C23": {
  "status": "proved",
  "note": "Every accepted call, by an independent interpreter of the generated body, under the hygiene condition that no parameter is called like a local dictionary or hides a module-level object; C23_variables_counterexample shows the condition is needed."
 },
 "C24": {
  "status": "partial",
  "note": "Proved for expanded variables that are required. Defaulted ones raise NameError on every call, nullable ones make generation fail (counterexamples)."
 },
 "C25": {
  "status": "proved",
  "note": "Every accepted call of every factory, provided no field parameter is called data or hides the class or the UNSET marker; C25_data_counterexample shows this is needed."
 },
 "C26": {
  "status": "partial",
  "note": "proved exactly for input, object and interface classes; fragment and nested selection classes are called without a type name (C26_unnamed_class) and operations with an OperationType, so include/exclude lists cannot reach them"
 },
 "C27": {
  "status": "proved",
  "note": "equality up to the renaming for every configuration, entries of additional_config included; the v1-only names orm_mode/allow_mutation are emitted for v2 as well, and the Arguments class of an operation, which does not use these functions, always has a v2 dictionary (counterexamples recorded)"
 },
 "C28": {
  "status": "proved",
  "note": "Rules are represented by their keys; what a rule checks is graphql-core's business and not modelled."
 },
 "C29": {
  "status": "proved",
  "note": "For function and factory parameters (scalars and inputs) and for operation variables; an empty coercion string counts as none for variables."
 },
 "C30": {
  "status": "proved",
  "note": "For all files without a class/function clash (precondition of the property; counterexample shows why). Comments before the first and after the last statement are lost (counterexample)."
 },
 "C31": {
  "status": "partial",
  "note": "Proved for classes, functions, methods and annotated attributes: present, new ones exactly once, placement. Missing: imports, nested classes and other statements of the generated file are never merged in (counterexamples)."
 },
 "C32": {
  "status": "partial",
  "note": "Proved when generated classes have distinct member names and there is no class/function clash; counterexamples otherwise."
 },
 "C33": {
  "status": "partial",
  "note": "Proved for files with distinct names and without leading/trailing comments; counterexamples otherwise."
 },
 "C34": {
  "status": "proved",
  "note": "For every parser, printer and file system."
 },
 "C35": {
  "status": "proved",
  "note": "Plugins are arbitrary functions on the registry. Also: generation succeeds iff every plugin does and every helper asked for exists."
 },
 "C36": {
  "status": "proved",
  "note": "Parsers and processors are arbitrary functions with arbitrary effects on a world."
 },
 "C37": {
  "status": "proved",
  "note": "For every list of projects, generator and operating-system behaviour: a project whose generation fails touches no file, projects are written in order, and a failing project does not keep the others from being written."
 },
 "C38": {
  "status": "proved",
  "note": "The command fails exactly when some project with exit_on_error failed, every project having been attempted. That failing means failing to generate is proved for a disk that works and dumps that can be printed."
 },
 "C39": {
  "status": "partial",
  "note": "False as stated: gen() passes the pair returned by generate, not text, to the writer, so every successful generation truncates the output file and then fails (counterexample for all projects). Proved: failing generations leave the disk alone and later projects are attempted unless strict."
 },
 "C40": {
  "status": "partial",
  "note": "Single sources and singleton lists are proved in full. False for longer lists: a string matching no file (such as a URL) and any mapping make the list fail (two counterexamples, for all lists). Lists of file patterns are proved."
 },
 "C41": {
  "status": "partial",
  "note": "Loading, selection, discovery and the command are proved. An unsupported file type gives a KeyError from load_projects_from_configpath, not the descriptive error (counterexample for all unsupported names)."
 },
 "C42": {
  "status": "partial",
  "note": "init is proved in full. download overwrites existing files without asking (counterexample for all loadable schemas and every --dir); that it changes only the files of its projects is proved, and C42_paths says which files these are (absolute names, an empty --dir, any other --dir)."
 },
 "C43": {
  "status": "partial",
  "note": "C43_inputs (the analysis succeeds on every valid document and its inputs are exactly those reachable from variable types, recursive inputs included) and C43_terminates (any schema, any document) are unrestricted. C43_leaves_partial: enums and scalars are never too many; never too few for variables; for selected fields never too few when inline fragments are not nested directly in one another and do not stand at the top of an operation. Counterexamples: directly nested inline fragments are overlooked for every schema; __schema/__type at the root raise KeyError. Inline fragments without type condition are outside ValidDoc."
 },
 "C44": {
  "status": "partial",
  "note": "C44_needed_kept_partial composes the reference analysis with the inputs and enums plugins: every input and enum needed by variables (transitively) is generated; enums of selected fields when inline fragments are not directly nested; C44_nothing_else_kept is the converse. False of the code for fields of union members (unionElementOf): C44_union_member_fields_counterexample (dangling class name) and C44_union_member_enum_counterexample (generation fails). Scalars are not generated, so nothing is claimed about them."
 },
 "C45": {
  "status": "partial",
  "note": "Names bound and statements kept are proved for all modules. False: a typing import of only Literal leaves an empty import, which is not Python (counterexample); proved when every typing import has another name."
 },
 "C46": {
  "status": "proved",
  "note": "Success implies every kept non-member @oneOf satisfies the constraints; the check is characterised exactly; the error names the input. The statement excludes @oneOf types that are union members, which are not validated (C46_union_member_unchecked_counterexample)."
 },
 "C47": {
  "status": "partial",
  "note": "Wrapper classes and tag tables are exact for every schema; serialisation yields one key of a member and rejects foreign values. That the key is the field of that member needs distinct Python class names of the members (C47_colliding_members_counterexample shows it fails otherwise)."
 },
 "C48": {
  "status": "proved",
  "note": "Each key exactly once, and order: every evaluated name is bound earlier."
 },
 "C49": {
  "status": "proved",
  "note": "C49_bases_exact, C49_bases_before_class, C49_missing_base_fails, and C49_generation_succeeds (nothing else makes the plugin fail). The failure clause also covers valid schemas: C49_child_before_parent_counterexample shows a schema declaring a child interface before its parent is always rejected."
 },
 "C50": {
  "status": "partial",
  "note": "Union contents and the unimplemented-interface error are proved (C50_union_exact, C50_unimplemented). That annotations refer to the name of the union holds only when styling leaves the interface name alone (C50_references_meet_alias_partial); C50_raw_name_counterexample shows it false for an interface named None."
 },
 "C51": {
  "status": "partial",
  "note": "C51_each_kept_enum_once (which enums, order, names, str enums) and C51_members (members exactly the schema's values, for every enum whose value names Python accepts, and only for those). C51_documentation: the docstring of the class, and below each value its description with its deprecation mark. False of the code for values that are Python keywords (universal counterexample). prepend/append are ignored although documented."
 },
 "C52": {
  "status": "proved",
  "note": "Every kept type, every field, every argument list; parameters in exactly the stated order with defaults that evaluate to the schema's. Limit: an argument called self makes the resolver a SyntaxError."
 },
 "C53": {
  "status": "partial",
  "note": "Proved for every JSON-like default value (directive and resolver arguments). False for constants in directive applications: numbers become strings, enum values no literal, objects fail; proved for strings, booleans, null and lists. Boolean variable defaults are documented as False."
 },
 "C54": {
  "status": "partial",
  "note": "Sorted listing order is proved. False: files are joined without a separator, so tokens merge (counterexample); proved for lexically correct files that end in a newline."
 },
 "C55": {
  "status": "proved",
  "note": "Output of the external command is used exactly when it exits with 0; both ruff steps and their order."
 },
 "C56": {
  "status": "proved",
  "note": "text and annotation markers, for all descriptions, reasons, defaults"
 },
 "C57": {
  "status": "partial",
  "note": "C57_distinct_classes_partial (an operation), C57_fragment_classes_partial (a fragment), C57_document_classes_partial (a document), C57_module_classes_partial (enums, inputs, fragments and operations together): the names defined are pairwise different if nested selections have paths that differ up to case, keys begin with a letter, no key directly below an interface begins with 'base', no implementing type is called CatchAll, no key at the top of a fragment begins the name of a type for which the fragment has a class, and no definition's class name begins that of another definition or type. Each kind of condition is needed: the counterexamples are documents in which two classes share a name (case, underscore, base, the same key under two inline fragments, two unions, a union fragment, an interface fragment, a fragment called like a nested class, a fragment and an operation of the same name, an operation called like an input type)."
 },
 "C58": {
  "status": "proved",
  "note": "Result and all rejections of importing a dotted path."
 },
 "C59": {
  "status": "partial",
  "note": "The statement as given is false of the code (C59_watch_filter_counterexample): the part after the first dot of the file name decides. Proved: the statement for every path whose file name has exactly one dot (C59_watch_filter_partial), and what the filter does for names with more dots and with none (C59_other_names); C59_file_name says what the file name of a path is."
 },
 "C60": {
  "status": "partial",
  "note": "Proved: C60_module_resolves_partial \u2014 the statements of the enums, inputs, fragments and operations plugins, run one after the other on a fresh registry, evaluate only names that are imported, built in or bound by an earlier statement, for every schema and document with acyclic, defined fragments and no spread below an inline fragment of a fragment; C60_module_resolves_closed_partial removes the remaining assumptions for documents that spread no fragment on an interface at a union (Spec/UnionSpread.lean) and have no optional variables. Objects: C60_objects_resolve. Missing because false of the code: names of interface fragments spread in unions, directly or inside an inline fragment (C60_interface_fragment_counterexample, C60_interface_fragment_inline_counterexample), Field in the Arguments class (C60_arguments_field_counterexample), object bases that nobody imports (C60_object_bases_counterexample), Field for unimplemented interfaces without catch-all (C60_lonely_interface_counterexample). Funcs and strawberry plugins: see C67, C68."
 },
 "C61": {
  "status": "partial",
  "note": "C61_inputs_partial, C61_objects_partial and C61_module_partial: a class whose attributes with a value are not called like an import, builtin type, helper class, scalar's Python type or class of the module hides none of the names it uses. The unrestricted claim is false of the code: C61_input_counterexample (for every input type with an omittable field called like the Python type of its scalar, at any nesting), C61_object_counterexample, C61_operation_counterexample."
 },
 "C62": {
  "status": "proved",
  "note": "Members, discriminator and Literal fields exact for every schema; conflicting declarations cannot occur in a successful run. C62_discriminators_marked_set: with pydantic 2 an instance always counts exactly its discriminators as set, so they are sent."
 },
 "C63": {
  "status": "partial",
  "note": "Proved for the module of the enums, inputs, fragments, operations, funcs and input_funcs plugins run in order (C63_functions_partial): every name quoted in an annotation of a class, a parameter or a return type is bound by the classes of the module or is a helper class, except the class of a type left out by skip_unreferenced/skip_underscore/skip_double_underscore and the name of a fragment on an interface; with none of these the statement is unconditional (C63_module_closed_partial, C63_functions_closed_partial). Proved likewise for the objects plugin after enums. Counterexamples show that both exceptions occur in modules generated with the default configuration, the first one in factories too."
 },
 "C64": {
  "status": "partial",
  "note": "False: the file is truncated before it is written (counterexample for every successful generation). Proved for every operating system and crash point: each file is as before or holds the beginning of a text generated for it."
 },
 "C65": {
  "status": "proved",
  "note": "For every history of changes and generation outcomes, on a disk that works and if others do not edit the output."
 },
 "C66": {
  "status": "proved",
  "note": "Classes, members, annotations, scalars, decorators, base classes, directives, descriptions and deprecations exact for every schema and registry history. Limit shown under C08: configured scalar types are ignored."
 },
 "C67": {
  "status": "partial",
  "note": "`C67_names_partial`: all names resolve, for every schema (directives, scalars, enums, inputs, interfaces, types) and every earlier history, if no input bases are configured and applied directives are generated and contain no enum value. Counterexamples: rebuild statements, configured bases not imported, enum values in directives, `generate_directives: false`."
 },
 "C68": {
  "status": "partial",
  "note": "Exact for arguments without default; false for nullable arguments with a default (counterexample for all of them)."
 },
 "C69": {
  "status": "partial",
  "note": "Content and outcome agree for all pairs of set orders; the order of the imports and helper classes is not fixed, and with two imports sharing their last component the name means different things in different processes (counterexample)."
 },
 "C70": {
  "status": "partial",
  "note": "Names exact for all inputs; distinctness under the stated conditions on spelling and prefixes; collisions, keywords and hidden classes as counterexamples."
 },
 "C71": {
  "status": "partial",
  "note": "Acceptance exact; configured scalars, helpers and bases stand for the configured type in every history. Limits: other builtins give `import object` statements, and malformed paths are accepted (counterexamples)."
 },
 "C72": {
  "status": "partial",
  "note": "Proved for all schemas, documents and paths with selections of the shapes `Keepable`/`KeepableFragment`; C72_document_kept_partial has no assumptions about the generated module (distinct class names follow from C57). Outside these shapes the code loses data; nine counterexamples: a spread or inline fragment inside an inline fragment, an inline fragment in a fragment on an object, a union fragment spread at an interface, two fragments for one union member, one key with different sub-selections, keys with a leading underscore, an aliased __typename."
 },
 "C73": {
  "status": "partial",
  "note": "Proved for all schemas and documents whose selections are of the shapes `Inheritable`/`InheritableFragment` (fragments spread beside each other inherit from no common one) and configurations without bases for single types, interfaces or fragments. Outside, the code generates modules that cannot be imported; six counterexamples: a fragment spread before or after another that spreads it, a fragment spread twice, a union fragment as base, a spread hidden below an inline fragment, an additional base equal to an object base."
 },
 "C74": {
  "status": "partial",
  "note": "Proved for the six plugins in their usual order, under the hypotheses of C60 for the classes and for documents with distinct operation names. Missing because the code is wrong there: an extra keyword parameter with default None uses Optional without importing it (counterexample), and functions generated before the operations evaluate classes defined below them (counterexample)."
 },
 "C75": {
  "status": "partial",
  "note": "Acceptance and contents of all templates are proved without assumptions on what is installed. Functions: proved for gql under the assumptions of C74, for rath only if something else in the module imports Optional; C75_rath_counterexample is the module of the untouched rath template that raises NameError. The strawberry template is covered up to the configuration (see C66, C67 for its output)."
 },
 "C76": {
  "status": "partial",
  "note": "Assembly for any plugins; the strawberry plugin with skip_forwards; the six pydantic plugins in the order of the init template, including the rebuild section: every rebuilt name is one of the module's classes. Excluded, with counterexamples: `Enum` not imported for introspection enums without the enums plugin; rebuilding classes of interface fields, of helper-typed variables (empty name) and of ungenerated inputs or enums coerced as inputs (`SHOULD_NOT_BE_USED`); rebuilding a fragment on a union, which is an alias and no class. Fragments on interfaces are covered unless the document spreads them at a union (C60)."
 },
 "C77": {
  "status": "partial",
  "note": "Proved for the enums, inputs, fragments, operations, functions and factories plugins in the order of the init template (`C77_generation_succeeds_partial`; the four class plugins alone: `C77_classes_partial`), for the enums and objects plugins (`C77_objects_partial`), for the strawberry plugin (`C77_strawberry_partial`), for all chains of shipped stylers (`C77_shipped_stylers`), and end to end with C76: the module is generated and executes (`C77_module_executes_partial`, without fragments on interfaces that are spread at a union). False for arbitrary valid GraphQL: thirty counterexamples, one for each narrowing of the documents and schemas."
 },
 "C78": {
  "status": "partial",
  "note": "Proved: for every schema, document and configuration in which no variable is expanded, the docstring of every generated function has exactly one line per parameter, in order, with requiredness, default and descriptions (C78_function_documentation_partial); C78_heading: it begins with the name of the operation and its comment or the descriptions of the root fields under their response keys; C78_returns_partial: it ends with the class of the operation, or the type of the only field (without aliases); factories document every field, and with the shipped stylers exactly their parameters (C78_factory_documentation, C78_factory_parameters). False of the code, hence partial: a description is looked up under the name of the variable, not of the argument (C78_description_counterexample); fields of expanded variables are documented in another order and without marking optional ones (C78_expanded_counterexample). The label of the returned type ignores aliases (C21_label_counterexample)."
 },
 "C79": {
  "status": "partial",
  "note": "Proved for all schemas, documents and JSON values, for selections of the shapes `Keepable`/`KeepableFragment`; C79_document_delivers_partial has no assumptions about the generated module. Acceptance without populating by field name. With catch-all classes an object at an interface may also be of any other type and then only has the interface's own fields: C79_catch_all_counterexample shows that malformed objects of known types slip through there. Outside the shapes the code accepts too much; three counterexamples: two fragments for one union member, nested inline fragments, inline fragments in fragments on objects."
 },
 "C80": {
  "status": "proved",
  "note": "Whole runs of fragments, operations and funcs plugins after enums and inputs (C80_documents_unchanged) and without them (C80_documents_only). Additive is spelled out in Spec/Evolution.lean (Extends, SameNames); sameNames_plain discharges SameNames for schemas without @oneOf inputs and discriminated unions. Counterexamples show that the exclusions are needed: a new implementing type changes the classes (C80_implementer_counterexample), a new field of an expanded input changes the parameters (C80_expanded_counterexample). The enums, inputs, objects and strawberry plugins mirror the schema and are not part of the claim."
 },
 "C81": {
  "status": "partial",
  "note": "C81_compositional (with removal and reordering as corollaries) needs distinct operation names across kinds and no spread below inline fragments of fragments; both are necessary: C81_same_name_counterexample (a mutation named like a query changes the annotation of the query's function), C81_order_counterexample (reordering makes generation fail). Names and constants as in C13."
 },
 "C82": {
  "status": "proved",
  "note": "All eight plugins. The exception for @oneOf inputs is part of the statement; C82_oneof_counterexample shows that it is needed."
 },
 "C83": {
  "status": "partial",
  "note": "Everything that is legal can be sent. The converse is proved for schemas in which no non-null field has a default value: such a field is generated as Optional, so that None is sent as null, which the server rejects (C83_defaulted_field_counterexample)."
 },
 "C84": {
  "status": "partial",
  "note": "Proved for documents and schemas that satisfy Trimmable. False in general: a used member of a discriminated union that is itself left out loses its discriminator field (C84_dropped_union_counterexample), and an enum needed only by a member of a needed union makes generation fail (C84_member_enum_counterexample)."
 },
 "C85": {
  "status": "proved",
  "note": "C85_hidden_proxy_counterexample: without the condition on hidden names, a variable called `execute` breaks the synchronous function and not the asynchronous one."
 },
 "C86": {
  "status": "partial",
  "note": "Survival is proved as C86_user_code_survives (no name may change between class and function, see C30). Stability is C86_stable_partial and C86_fresh_partial, under the conditions of C32/C33 and for a libcst that reads what it printed. False for other orders of the processors: with the disclaimer after the merge every run adds another disclaimer (C86_disclaimer_last_counterexample)."
 },
 "C87": {
  "status": "partial",
  "note": "C87_accepted_variables_can_be_sent is unrestricted in this respect; C87_sent_variables_are_accepted_partial excludes non-null fields and variables with default values, for which the claim is false (C87_defaulted_variable_counterexample, C83_defaulted_field_counterexample). Both exclude discriminated unions (unionElementOf) and names that mean something else in documents (PlainVariableType, Unambiguous); the base classes of Arguments are taken to add no fields."
 },
 "C88": {
  "status": "partial",
  "note": "C88_typed_calls_are_accepted_partial (functions), C88_accepted_variables_are_reached_partial (the converse) and C88_typed_factories_partial (factories of input types). The claim is false for expanded @oneOf inputs (C88_oneOf_counterexample) and for non-null fields with defaults (NoOptionalNonNull), which are excluded; so are discriminated unions and names that mean something else in documents. Coercions must be safe (SafeCoercions), and absent for the converse. The UNSET marker has a type without other instances."
 },
 "C89": {
  "status": "partial",
  "note": "The selections are those of C19 and C79. Response keys with a leading underscore are private to pydantic: the collapsed function finds nothing to hand back (C89_underscore_counterexample). Parameters must not hide the names the function uses (as in C23)."
 },
 "C90": {
  "status": "partial",
  "note": "The classes are exact (C90_directive_classes). Applications are accepted if the argument names are not changed by stylers or keywords and all arguments without default are given: C90_keyword_argument_counterexample and C90_omitted_argument_counterexample show that both conditions are needed."
 },
 "C91": {
  "status": "partial",
  "note": "C91_reads_back is for all syntax trees of the modelled language: directives in documents are not modelled, string constants are kept as written between the quotes, and block strings are not modelled. C91_sent_documents_partial excludes fragment names that are not letters only and constants with three dots, for which the property is false (counterexamples of C13)."
 },
 "C92": {
  "status": "partial",
  "note": "Proved for documents whose conditional selections are nullable (or unconditionally selected too); for conditional non-null fields the property is false of the code (C92_required_counterexample): the directives are ignored and the generated field has no default. Also inherits the hypotheses of C19."
 },
 "C93": {
  "status": "proved",
  "note": "C93_operations (docstring, comments of all root fields in order, domain), C93_object_fragments (docstring, Meta name and type, both directions), C93_interface_fragments (base class and implementing classes), C93_inputs (ordinary inputs and members of unions), C93_objects (docstring and field comments). Which comments document an operation is C95 (here the parameter q.documentation). C93_selections: the classes of selections at any depth (one call of the translation of a field); C93_union_fragments: the statement after the alias of a union fragment."
 },
 "C94": {
  "status": "proved",
  "note": "C94_operations, C94_object_fragments, C94_interface_fragments, C94_union_fragments, C94_selections and C94_union_selections (any depth), C94_catchall, C94_inputs, C94_oneof_wrappers (with their docstrings), C94_objects, C94_strawberry. The classes of spread fragments and of interfaces among the bases are said to be names; which ones they are is C12, C49 and C66. Two oddities are part of the statement: a selection with a spread loses the bases configured for its type, and so do members of union fragments."
 },
 "C95": {
  "status": "partial",
  "note": "C95_comments_partial (exact text), C95_comments_determined (the comments of given lines exist and are unique), C95_position_independent_partial, C95_docstring_partial (the class statement). Lines end in a newline, with or without a carriage return before it. Partial because the lines up to the first selection must not contain a character at which only Python breaks lines, or a carriage return alone; C95_line_separator_counterexample shows that the claim is false with U+2028 in a comment above. C95_hash_counterexample: a # inside a string literal counts as a comment and a comment is cut at its last #."
 }
}