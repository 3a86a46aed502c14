{"id": "C01", "title": "snake_case styling only inserts underscores and lower-cases, and is stable", "statement": "For every GraphQL name, the name produced by SnakeCaseStyler/DefaultStyler for a field, argument or parameter contains no upper-case letter, equals the lower-cased input once underscores are ignored, starts with the (lower-cased) first character of the input, is a valid GraphQL/Python identifier whenever the input is, and styling it a second time changes nothing.", "quantifier": "every name (any length, any characters)", "why_tests_cant": "Two chained regular-expression substitutions act on unboundedly many strings; a test fixes a handful of names.", "anchors": ["turms/stylers/default.py:camel_to_snake", "turms/stylers/snake_case.py:SnakeCaseStyler"]}
{"id": "C02", "title": "A generated attribute never is a Python keyword and never loses its wire name", "statement": "For every chain of stylers and every GraphQL field/argument name, the generated Python attribute or parameter name is not a Python keyword, and the key the generated model reads from/writes to the wire (its alias if one is emitted, otherwise the attribute name) is exactly the GraphQL name; an alias is emitted exactly when the two differ.", "quantifier": "every styler chain, every field name, every plugin that emits fields (inputs, objects, selections)", "why_tests_cant": "The styler is user-extensible code and the name space is infinite.", "anchors": ["turms/registry.py:generate_node_name", "turms/registry.py:generate_parameter_name", "turms/recurse.py:type_field_node", "turms/plugins/inputs.py:generate_input_type", "turms/plugins/objects.py:generate_types"]}
{"id": "C03", "title": "Capitalising / suffixing stylers are stable and chained in configuration order", "statement": "CapitalizeStyler and DefaultStyler change only the first character of a class name, produce a name that does not start with a lower-case letter, and are idempotent; AppenderStyler yields name+suffix, which is injective; a registry with stylers s1..sn produces sn(...s1(name)).", "quantifier": "every non-empty type name, every suffix, every list of stylers", "why_tests_cant": "Unbounded names and styler lists.", "anchors": ["turms/stylers/capitalize.py", "turms/stylers/appender.py", "turms/stylers/default.py", "turms/registry.py:style_*"]}
{"id": "C04", "title": "A GraphQL definition is registered at most once and its class name never changes afterwards", "statement": "In every history of calls on a registry, the second attempt to register the same enum, input, object, interface, fragment, query, mutation or subscription fails, and once a name is registered all later look-ups return the same styled class name.", "quantifier": "every finite history of registry calls", "why_tests_cant": "The guarantee is about all interleavings of calls made by arbitrary plugins, not about one run.", "anchors": ["turms/registry.py:generate_enum", "turms/registry.py:generate_inputtype", "turms/registry.py:generate_fragment", "turms/registry.py:generate_query"]}
{"id": "C05", "title": "A class is referenced by bare name only if it already exists; otherwise the reference is quoted and scheduled for resolution", "statement": "In every history of registry calls, a reference to an input/enum/object/fragment returned as a bare Python name names a class that was registered earlier in that history (and differs from the class being defined); every other successful reference is a quoted forward reference, and then the referring class is in the model_rebuild section of the output. With forward references disallowed the call fails instead.", "quantifier": "every history of registry calls, every styler chain", "why_tests_cant": "Ordering guarantee over all histories.", "anchors": ["turms/registry.py:_reference_generic", "turms/registry.py:reference_inputtype", "turms/registry.py:reference_enum", "turms/registry.py:reference_fragment"]}
{"id": "C06", "title": "The forward-reference section is sorted, duplicate free and complete", "statement": "For every history of registry calls the emitted rebuild statements name each class that holds a quoted reference exactly once, in ascending order, and name nothing else; pydantic v1 and v2 output differ only in the method that is called.", "quantifier": "every history of registry calls", "why_tests_cant": "The set of classes is unbounded and order dependent only on names.", "anchors": ["turms/registry.py:generate_forward_refs"]}
{"id": "C07", "title": "Import statements bind exactly the registered imports, whatever order the set is iterated in", "statement": "For every set of registered dotted names and every iteration order of that set, the emitted import statements import, for each registered dotted name m.n, n from m, and for each registered plain name that name; nothing else; no module is imported from in two statements; never an import of bool, str, int, float, dict, list or tuple. Two iteration orders give the same statements up to order.", "quantifier": "every set of imports and every iteration order", "why_tests_cant": "Python set order depends on the hash seed; tests see one order per run.", "anchors": ["turms/registry.py:register_import", "turms/registry.py:generate_imports"]}
{"id": "C08", "title": "Scalar resolution: configuration wins, defaults next, otherwise an error", "statement": "For every configuration, a GraphQL scalar is resolved to the configured Python type if it is configured, else to the documented default, else generation fails naming the scalar; when the resolved type is dotted its import is registered and the emitted annotation is exactly the name that import binds.", "quantifier": "every scalar_definitions map and every scalar name", "why_tests_cant": "Maps and names are unbounded.", "anchors": ["turms/registry.py:reference_scalar", "turms/registry.py:SCALAR_DEFAULTS", "turms/config.py:PythonType"]}
{"id": "C09", "title": "Helper classes are emitted exactly when they are used", "statement": "In every history, the helper classes (UNSET sentinel and UnsetType, GraphQLDefault, Deprecated) emitted at the top of the module are exactly those some generated code refers to, each once, and together with the imports their own definition needs.", "quantifier": "every history of registry calls, every unset override", "why_tests_cant": "Quantifies over histories.", "anchors": ["turms/registry.py:reference_unset", "turms/registry.py:reference_enum", "turms/registry.py:generate_builtins"]}
{"id": "C10", "title": "Fragment dependencies are the transitively spread fragments", "statement": "The dependency set computed for a fragment is exactly the set of fragment names reachable from its selection set by following fields, fragment spreads and inline fragments, transitively; the computation terminates for cyclic fragments too.", "quantifier": "every document (any nesting depth, any spread graph, cyclic or not)", "why_tests_cant": "Reachability in arbitrary graphs with a shared mutable visited set.", "anchors": ["turms/plugins/fragments.py:find_fragment_dependencies_recursive", "turms/plugins/fragments.py:build_recursive_dependency_graph"]}
{"id": "C11", "title": "Fragment classes are emitted after every fragment they depend on", "statement": "For every dependency graph the generated order lists every fragment exactly once; if the graph is acyclic and closed, every fragment comes after all of its dependencies.", "quantifier": "every dependency graph", "why_tests_cant": "Graph algorithm correctness over all graphs.", "anchors": ["turms/plugins/fragments.py:topological_sort", "turms/plugins/fragments.py:reorder_definitions"]}
{"id": "C12", "title": "Ordering fragments always terminates and never loses a fragment", "statement": "Even for cyclic or dangling dependency graphs the ordering terminates and returns a permutation of the fragments found in the documents.", "quantifier": "every graph, including cyclic and dangling ones", "why_tests_cant": "Termination over an infinite input space.", "anchors": ["turms/plugins/fragments.py:topological_sort", "turms/plugins/fragments.py:reorder_definitions"]}
{"id": "C13", "title": "The embedded document is self-contained", "statement": "The document string stored in a generated operation ends with the printed operation, contains the definition of every fragment that is transitively spread, each exactly once, and no definition of a fragment that is not spread.", "quantifier": "every operation, every set of fragment documents, any spread graph", "why_tests_cant": "Closure over arbitrary graphs; text-level matching over all texts.", "anchors": ["turms/utils.py:replace_iteratively", "turms/utils.py:fragment_searcher", "turms/plugins/operations.py:generate_operation"]}
{"id": "C14", "title": "Missing fragments are reported, present ones never are", "statement": "Building the embedded document fails with FragmentNotFoundError exactly when some transitively spread fragment has no registered document; otherwise it terminates with a result, also when fragments spread each other cyclically.", "quantifier": "every document and registry content", "why_tests_cant": "Termination and error completeness over all graphs.", "anchors": ["turms/utils.py:replace_iteratively", "turms/registry.py:get_fragment_document"]}
{"id": "C15", "title": "__typename is requested in every nested selection set, nothing else changes", "statement": "After automatic typename insertion every selection set below the operation root contains __typename, the original selections are all kept in order, no selection set contains an added __typename twice, and applying the insertion again changes nothing.", "quantifier": "every document, any nesting", "why_tests_cant": "Unbounded recursive structure.", "anchors": ["turms/utils.py:add_typename_recursively", "turms/utils.py:auto_add_typename_field_to_fragment_str", "turms/utils.py:auto_add_typename_field_to_all_objects"]}
{"id": "C16", "title": "Argument annotations mirror the GraphQL type at every depth", "statement": "The annotation generated for a variable / input field accepts a Python value exactly when that value is legal for the GraphQL type: None is accepted exactly at the nullable positions, lists exactly at list positions, and leaves only with the mapped Python type, at every nesting depth.", "quantifier": "every GraphQL type (any nesting of list and non-null) and every value", "why_tests_cant": "Types and values are unbounded trees.", "anchors": ["turms/utils.py:recurse_type_annotation", "turms/plugins/inputs.py:generate_input_annotation", "turms/plugins/funcs.py:generate_input_annotation"]}
{"id": "C17", "title": "An input model field is required exactly when the server requires it", "statement": "A field of a generated input model must be supplied by the caller exactly when it is non-null and has no schema default; an omittable field defaults to the configured marker (UNSET/None) and not to the schema default value; a non-null field with a schema default additionally accepts the marker.", "quantifier": "every input field type and default", "why_tests_cant": "All combinations of wrappers and defaults.", "anchors": ["turms/plugins/inputs.py:generate_input_field_annotation", "turms/plugins/inputs.py:generate_input_field_value", "turms/plugins/inputs.py:generate_input_type"]}
{"id": "C18", "title": "Response annotations mirror the wrapping of the GraphQL field type", "statement": "The annotation of a selected leaf field accepts null exactly at nullable positions and sequences exactly at list positions, at every depth, both with lists and with frozen tuples; a nullable field is not required in the payload.", "quantifier": "every output field type and JSON value", "why_tests_cant": "Unbounded types and values.", "anchors": ["turms/recurse.py:recurse_annotation", "turms/recurse.py:type_field_node"]}
{"id": "C19", "title": "Generated response models accept every conforming response", "statement": "For every selection set over a schema, every JSON object a spec-conforming server may return for it is accepted by the generated model (including nested objects, lists, nulls, unions, interfaces and fragments).", "quantifier": "every schema, every selection set, every conforming response", "why_tests_cant": "The set of responses for a fixed query is already infinite; schemas and queries too.", "anchors": ["turms/recurse.py:recurse_annotation", "turms/plugins/operations.py:generate_operation", "turms/plugins/fragments.py:generate_fragment"]}
{"id": "C20", "title": "Object models mirror the schema field types", "statement": "ObjectsPlugin's field annotation accepts exactly the values of the GraphQL field type at each depth, the field may be omitted exactly when it is nullable, and its alias is the schema name.", "quantifier": "every field type", "why_tests_cant": "Unbounded nesting.", "anchors": ["turms/plugins/objects.py:generate_object_field_annotation", "turms/plugins/objects.py:generate_types"]}
{"id": "C21", "title": "Function return annotation equals the field annotation of the operation model", "statement": "For a collapsed single-field operation, the return annotation of the generated function is the annotation the operation model gives to that field, for every return type wrapping; the docstring label denotes the same type.", "quantifier": "every operation return type", "why_tests_cant": "Unbounded wrappings; separate code paths must agree.", "anchors": ["turms/plugins/funcs.py:get_return_type_annotation", "turms/utils.py:recurse_outputtype_annotation", "turms/utils.py:recurse_outputtype_label", "turms/utils.py:recurse_type_label"]}
{"id": "C22", "title": "Generated signatures are valid Python", "statement": "In every generated function, no parameter without default follows one with default and every default belongs to the intended parameter: required variables have none, optional/defaulted variables have theirs.", "quantifier": "every list of variables, every expand/argument configuration", "why_tests_cant": "All permutations of required and optional variables.", "anchors": ["turms/plugins/funcs.py:generate_parameters", "turms/plugins/funcs.py:generate_input_type_params"]}
{"id": "C23", "title": "A generated function sends exactly the variables the caller supplied", "statement": "Executing the generated body with any arguments sends a variables mapping that contains, keyed by the GraphQL variable name, every required variable and exactly those optional variables whose argument is not the UNSET marker (an explicit None is sent), with the caller's values, and nothing else.", "quantifier": "every operation signature and every call", "why_tests_cant": "All calls times all signatures.", "anchors": ["turms/plugins/funcs.py:generate_variable_assignments", "turms/plugins/funcs.py:generate_query_func"]}
{"id": "C24", "title": "Expanding an input type into parameters sends the same payload as passing the input", "statement": "When a variable is listed in expand_input_types, calling the generated function with the individual fields sends, under the variable's name, the mapping of exactly the supplied fields keyed by GraphQL field name.", "quantifier": "every input type and every call", "why_tests_cant": "All input types and calls.", "anchors": ["turms/plugins/funcs.py:generate_input_type_params", "turms/plugins/funcs.py:generate_variable_assignments"]}
{"id": "C25", "title": "Input factories build the model from exactly the supplied fields and never shadow their class", "statement": "For every input type the factory returns the input model constructed from exactly the required fields and those optional fields that are not UNSET, keyed by GraphQL name; its function name differs from the class name.", "quantifier": "every input type, every call, every styler", "why_tests_cant": "All input types and calls.", "anchors": ["turms/plugins/input_funcs.py:generate_input_func"]}
{"id": "C26", "title": "Freeze and option settings reach exactly the selected types", "statement": "A generated class is frozen exactly when freezing is enabled, its kind is listed, it is not excluded and (if an include list is given) it is included; an option appears in the class config exactly when options are enabled for it in the same sense and the option is set, with the configured value; user supplied additional_config entries always appear.", "quantifier": "every freeze/options configuration, kind and type name", "why_tests_cant": "All configurations.", "anchors": ["turms/utils.py:generate_config_dict", "turms/utils.py:generate_config_class_pydantic"]}
{"id": "C27", "title": "Pydantic v1 and v2 configuration agree", "statement": "For every configuration the v1 Config class and the v2 ConfigDict carry the same settings, modulo the documented renaming of allow_population_by_field_name, and one is empty exactly when the other is.", "quantifier": "every configuration", "why_tests_cant": "Two hand-written code paths must agree on all inputs.", "anchors": ["turms/utils.py:generate_config_dict", "turms/utils.py:generate_config_class_pydantic", "turms/utils.py:generate_pydantic_config"]}
{"id": "C28", "title": "Document validation runs exactly the rules that are not omitted", "statement": "The rules used to validate documents are the specified GraphQL rules minus the omitted ones, in specification order, none twice; unknown rule names are rejected when the configuration is built.", "quantifier": "every list of omitted rule names", "why_tests_cant": "All subsets, with duplicates and in any order.", "anchors": ["turms/config.py:get_document_rules", "turms/rules.py"]}
{"id": "C29", "title": "Plugin coercions override global ones", "statement": "The coercion used for a scalar or input parameter is the plugin's if it has one, otherwise the global one, otherwise none; for inputs the original model type stays accepted.", "quantifier": "every pair of maps", "why_tests_cant": "All maps.", "anchors": ["turms/plugins/funcs.py:FuncsPlugin.generate_ast", "turms/plugins/input_funcs.py:InputFuncsPlugin.generate_ast", "turms/plugins/funcs.py:generate_input_annotation"]}
{"id": "C30", "title": "Merging keeps the user's code", "statement": "Merging regenerated code into an existing file (no name being a class in one file and a function in the other) keeps every existing top-level statement and class member, in order: code not named in the generated file is kept verbatim, and a function keeps its hand-written body (with the regenerated signature), at module level and inside classes.", "quantifier": "every pair of existing and generated module", "why_tests_cant": "All pairs of programs.", "anchors": ["turms/processors/merge.py:merge_code", "turms/processors/merge.py:merge_class"]}
{"id": "C31", "title": "Merging brings in every generated class, function and member exactly once", "statement": "After merging, every class, function, import and class member of the generated file is present; those missing from the existing file appear exactly once and verbatim, before the first symbol of the existing file that the generated file lists later, otherwise after the last one that is also generated.", "quantifier": "every pair of modules", "why_tests_cant": "All pairs of programs.", "anchors": ["turms/processors/merge.py:merge_code", "turms/processors/merge.py:merge_class"]}
{"id": "C32", "title": "Merging is idempotent", "statement": "Merging the same generated code a second time changes nothing.", "quantifier": "every pair of modules (without duplicate symbols)", "why_tests_cant": "All pairs of programs.", "anchors": ["turms/processors/merge.py:merge_code"]}
{"id": "C33", "title": "Merging unchanged generated code is the identity", "statement": "If the existing file equals the generated one, merging returns it unchanged.", "quantifier": "every module without duplicate symbols", "why_tests_cant": "All programs.", "anchors": ["turms/processors/merge.py:merge_code"]}
{"id": "C34", "title": "Without an existing file the merge processor returns the generated code unchanged", "statement": "MergeProcessor.run returns exactly the generated code when out_dir/generated_name does not exist, and merge_code of the file's content otherwise.", "quantifier": "every file system state and generated code", "why_tests_cant": "All file system states.", "anchors": ["turms/processors/merge.py:MergeProcessor.run"]}
{"id": "C35", "title": "Module assembly: imports, helpers, plugin output in order, rebuilds", "statement": "The generated module is import statements, then helper classes, then each plugin's statements in configuration order, then (unless skip_forwards) the rebuild statements; imports registered by any plugin are included; if any plugin fails the whole generation fails with GenerationError and produces nothing.", "quantifier": "every list of plugins (arbitrary code) and every registry behaviour", "why_tests_cant": "Plugins are user supplied functions.", "anchors": ["turms/run.py:generate_ast"]}
{"id": "C36", "title": "Processors are applied in configuration order and the first failure stops generation", "statement": "The final source is the composition of the configured processors in order applied to the unparsed module; if one fails generation fails with its error and later processors are not run; the same holds for parsers.", "quantifier": "every list of processors (arbitrary code)", "why_tests_cant": "User supplied functions.", "anchors": ["turms/run.py:process_code", "turms/run.py:parse_ast", "turms/run.py:generate"]}
{"id": "C37", "title": "A failing project never touches files and never stops the other projects", "statement": "Running the generate command over any list of projects, each project whose generation succeeds has its files written with exactly the generated code and schema dump, each project whose generation fails leaves the file system as it was, and projects are processed in order regardless of other projects' failures.", "quantifier": "every list of projects, every generation outcome, every initial file system", "why_tests_cant": "All interleavings of success and failure.", "anchors": ["turms/cli/main.py:generate_projects", "turms/run.py:write_code_to_file"]}
{"id": "C38", "title": "The generate command fails exactly when a project with exit_on_error failed", "statement": "The generate command ends with an error exactly when at least one failing project has exit_on_error set (after all projects have been attempted).", "quantifier": "every list of projects and outcomes", "why_tests_cant": "All combinations.", "anchors": ["turms/cli/main.py:generate_projects"]}
{"id": "C39", "title": "The Python API gen() writes the generated code of each project", "statement": "turms.run.gen(path) writes, for every project of the config file whose generation succeeds, exactly the generated code to out_dir/generated_name.", "quantifier": "every config file and every generation outcome", "why_tests_cant": "All projects.", "anchors": ["turms/run.py:gen", "turms/run.py:generate", "turms/run.py:write_code_to_file"]}
{"id": "C40", "title": "Schemas are loaded from the configured source", "statement": "A string or mapping schema source is loaded as schema text: URLs are fetched, file patterns are the matching files in sorted order one after the other, a mapping is what its URLs serve; if that gives no schema and introspection is allowed, the introspection result of the URL or of the only matching file is used; a list denotes all its parts together; everything else is rejected.", "quantifier": "every schema configuration value, every file system and network behaviour", "why_tests_cant": "All configurations and environments.", "anchors": ["turms/run.py:build_schema_from_schema_type", "turms/helpers.py:load_dsl_from_glob", "turms/helpers.py:load_introspection_from_glob"]}
{"id": "C41", "title": "Project selection and config discovery", "statement": "Loading a config yields exactly its projects (or exactly the selected one; an error if the selected one does not exist); a file with an unsupported extension is rejected with GenerationError; discovery in a folder succeeds exactly when there is a single candidate.", "quantifier": "every config file content and folder listing", "why_tests_cant": "All configurations.", "anchors": ["turms/run.py:load_projects_from_configpath", "turms/run.py:get_file_loader", "turms/run.py:scan_folder_for_single_config"]}
{"id": "C42", "title": "init and download never overwrite a file without consent", "statement": "turms init / turms download leave an existing target file untouched unless the user confirms, and write exactly the template / schema otherwise.", "quantifier": "every file system state and user answer", "why_tests_cant": "All states.", "anchors": ["turms/cli/main.py:init", "turms/cli/main.py:download"]}
{"id": "C43", "title": "Reference analysis finds exactly the reachable inputs and enums", "statement": "The inputs/enums/scalars considered referenced by documents are exactly those reachable from variable types through input fields, plus the leaf types of selected fields; the analysis terminates on recursive input types.", "quantifier": "every schema (also cyclic input types) and every document", "why_tests_cant": "Reachability over all schemas.", "anchors": ["turms/referencer.py:recurse_type_annotation", "turms/referencer.py:recurse_find_references", "turms/referencer.py:create_reference_registry_from_documents"]}
{"id": "C44", "title": "Dropping unreferenced inputs and enums never drops one that generated code needs", "statement": "With skip_unreferenced, every enum/input that the generated operations, fragments, inputs and functions mention is generated.", "quantifier": "every schema and documents", "why_tests_cant": "Agreement of two traversals over all documents.", "anchors": ["turms/plugins/enums.py:generate_enums", "turms/plugins/inputs.py:generate_inputs", "turms/referencer.py"]}
{"id": "C45", "title": "Polyfilling keeps every imported name bound", "statement": "After polyfilling for Python < 3.8 exactly the same names are imported as before, Literal comes from typing_extensions and from nowhere else, every emitted import is non-empty, and all other statements are unchanged; for newer versions nothing changes.", "quantifier": "every module body", "why_tests_cant": "All programs.", "anchors": ["turms/parsers/polyfill.py"]}
{"id": "C46", "title": "Invalid @oneOf inputs are rejected", "statement": "Generating inputs fails with a GenerationError naming the input for every selected @oneOf input (not itself a member of a discriminated union) that has a non-null field or a field with a default; a @oneOf input all of whose fields are nullable and default-free is never rejected by this check.", "quantifier": "every input type", "why_tests_cant": "All field combinations.", "anchors": ["turms/plugins/inputs.py:validate_oneof", "turms/plugins/inputs.py:get_oneof_member_map", "turms/utils.py:is_oneof_input_type"]}
{"id": "C47", "title": "@oneOf inputs serialise to exactly one tagged key", "statement": "For every @oneOf input and every member value, serialisation yields an object with exactly one key, the GraphQL field of that member; a value of a foreign type is rejected.", "quantifier": "every @oneOf type, every value", "why_tests_cant": "All types and values.", "anchors": ["turms/plugins/inputs.py:generate_oneof_direct_union", "turms/plugins/inputs.py:generate_oneof_wrapper_input"]}
{"id": "C48", "title": "Every input is generated at most once and unions come after their members", "statement": "InputsPlugin generates each selected input type exactly once and emits alias assignments only after all classes they mention.", "quantifier": "every schema", "why_tests_cant": "All type maps and orders.", "anchors": ["turms/plugins/inputs.py:generate_inputs"]}
{"id": "C49", "title": "Object classes are emitted after their bases and list only minimal interfaces", "statement": "In ObjectsPlugin output every base class of a class is imported or emitted before it, and a base is listed only if no other listed interface already extends it; otherwise generation fails.", "quantifier": "every schema", "why_tests_cant": "All interface hierarchies.", "anchors": ["turms/plugins/objects.py:generate_types", "turms/utils.py:interface_is_extended_by_other_interfaces"]}
{"id": "C50", "title": "Interface references resolve to exactly the implementing classes", "statement": "The union emitted for an interface lists exactly the generated classes of the types implementing it, each once; an interface without implementations is an error when interfaces must be resolved.", "quantifier": "every schema", "why_tests_cant": "All hierarchies.", "anchors": ["turms/plugins/objects.py:generate_types"]}
{"id": "C51", "title": "Generated enums carry exactly the schema's values", "statement": "Each generated enum has exactly one member per GraphQL value, named and valued by that value, in schema order, and is a str enum; enums are skipped exactly by the documented rules.", "quantifier": "every enum and configuration", "why_tests_cant": "All enums.", "anchors": ["turms/plugins/enums.py:generate_enums"]}
{"id": "C52", "title": "Strawberry resolver signatures are valid and keep every argument", "statement": "A generated resolver has exactly the field's arguments (plus self/info/configured ones), arguments without default precede those with default, and each default stays attached to its argument.", "quantifier": "every field with any arguments", "why_tests_cant": "All permutations of arguments.", "anchors": ["turms/plugins/strawberry.py"]}
{"id": "C53", "title": "Default values and directive literals are rendered faithfully", "statement": "Evaluating the Python literal emitted for a GraphQL default value yields that value again, for every JSON-like value.", "quantifier": "every value (unbounded nesting)", "why_tests_cant": "Recursive values.", "anchors": ["turms/utils.py:convert_default_value_to_ast", "turms/utils.py:parse_value_node", "turms/plugins/strawberry.py:convert_valuenode_to_ast"]}
{"id": "C54", "title": "Loading from globs does not depend on directory order and splits cleanly", "statement": "The schema/documents read from a glob do not depend on the order in which the file system lists the files, and splitting definitions over several files does not change the token sequence.", "quantifier": "every listing order, every file content", "why_tests_cant": "All orders and contents.", "anchors": ["turms/helpers.py:load_dsl_from_glob", "turms/utils.py:parse_documents"]}
{"id": "C55", "title": "External processors never let broken output through", "statement": "A command or ruff processor returns the tool's output only if the tool exited with 0 and fails otherwise; ruff fixes run before formatting, each step at most once and only if enabled.", "quantifier": "every code, command outcome", "why_tests_cant": "All tool behaviours.", "anchors": ["turms/processors/command.py", "turms/processors/ruff.py"]}
{"id": "C56", "title": "Deprecation and documentation metadata are complete", "statement": "The documentation text/field metadata produced for a field contains the description when present and the deprecation reason exactly when the field is deprecated, and the annotation is otherwise unchanged.", "quantifier": "every description and deprecation reason", "why_tests_cant": "All texts.", "anchors": ["turms/utils.py:compose_field_documentation", "turms/utils.py:annotate_field_metadata"]}
{"id": "C57", "title": "Distinct selections and definitions get distinct classes", "statement": "No two statements of a generated module define the same name: two different nested selections of one operation or fragment, two definitions, a definition and a generated enum or input, are generated as classes with different names, so no class silently replaces another.", "quantifier": "every schema, document and pair of selection paths, definitions and types", "why_tests_cant": "All pairs of paths.", "anchors": ["turms/recurse.py:recurse_annotation", "turms/plugins/fragments.py:generate_fragment", "turms/plugins/operations.py:generate_operation"]}
{"id": "C58", "title": "Dotted import strings resolve to the named attribute", "statement": "import_string splits at the last dot, imports the module before it and returns the attribute after it; a string without dot or an unknown attribute is rejected with ImportError.", "quantifier": "every string", "why_tests_cant": "All strings.", "anchors": ["turms/helpers.py:import_string"]}
{"id": "C59", "title": "Watch mode reacts to every graphql document change", "statement": "The watch filter lets a change through exactly when the changed file is a .graphql file.", "quantifier": "every path", "why_tests_cant": "All paths.", "anchors": ["turms/cli/watch.py"]}
{"id": "C60", "title": "Generated definitions never mention an unbound name", "statement": "Executing the statements a plugin emits, top to bottom after the registered imports and helper classes, never evaluates a name that is not imported, builtin, emitted by an earlier plugin or bound by an earlier statement; and a plugin registers each of its type names once and leaves other plugins' registrations alone.", "quantifier": "all schemas, configurations and registry histories", "why_tests_cant": "Whether a name is bound depends on the order and shape of every type in the schema and on which import each branch registers.", "anchors": ["turms/plugins/inputs.py:generate_inputs", "turms/plugins/objects.py:generate_types", "turms/registry.py:ClassRegistry.register_import"]}
{"id": "C61", "title": "Field names do not shadow the types of their class", "statement": "In a generated class no field is given a Python attribute name that a later annotation or default of the same class body evaluates as a type or function.", "quantifier": "all schemas and stylers", "why_tests_cant": "Depends on the field names of arbitrary schemas; a class body that assigns e.g. `int` or `Optional` changes the meaning of the rest of the body.", "anchors": ["turms/plugins/inputs.py:generate_input_type", "turms/plugins/objects.py:generate_types", "turms/registry.py:ClassRegistry.generate_node_name"]}
{"id": "C62", "title": "Discriminated unions list exactly the declared members", "statement": "For every input type that other inputs declare via @unionElementOf, the generated alias is a union of the classes of exactly those inputs, each once, discriminated by the declared name; each member class carries exactly one Literal field per declared discriminator with the declared key; conflicting declarations are rejected.", "quantifier": "all schemas and directive placements", "why_tests_cant": "Ranges over arbitrary numbers of members, unions and directive combinations.", "anchors": ["turms/plugins/inputs.py:generate_inputs", "turms/plugins/inputs.py:generate_input_type"]}
{"id": "C63", "title": "Every quoted reference names a class of the module", "statement": "Every class name that appears quoted (as a forward reference) in an annotation of the generated module is defined in that module.", "quantifier": "every schema and configuration for which generation succeeds", "why_tests_cant": "Relates annotations anywhere in the module to definitions anywhere else, for all schemas and options.", "anchors": ["turms/registry.py:reference_inputtype", "turms/registry.py:reference_object", "turms/plugins/inputs.py:generate_inputs", "turms/plugins/objects.py:generate_objects"]}
{"id": "C64", "title": "A crash never leaves a half-written output file", "statement": "If the generate command is interrupted at any point, every output file is either as it was before or holds the complete new text.", "quantifier": "every list of projects, every generation outcome, every operating system behaviour and every crash point", "why_tests_cant": "Crash points cannot be enumerated by running the program.", "anchors": ["turms/run.py:write_code_to_file", "turms/run.py:write_schema_to_file", "turms/run.py:write_project", "turms/cli/main.py:generate_projects"]}
{"id": "C65", "title": "Watch mode keeps the output of the last successful generation", "statement": "After any sequence of changes the output file holds the code generated after the last change for which generation succeeded; failing generations leave it in place and do not stop watching.", "quantifier": "every history of changes and every outcome of each generation", "why_tests_cant": "Ranges over unbounded histories.", "anchors": ["turms/cli/main.py:watch_projects"]}
{"id": "C66", "title": "Strawberry modules mirror the schema", "statement": "For every object, interface, input and enum type that is not skipped, the strawberry plugin emits exactly one class, with one member per field (or enum value) in schema order, annotated so that it accepts exactly the values GraphQL allows for the field; every custom scalar is bound to a scalar of its own.", "quantifier": "every schema, configuration and registry history", "why_tests_cant": "All schemas and all type nestings.", "anchors": ["turms/plugins/strawberry.py:generate_types", "turms/plugins/strawberry.py:generate_inputs", "turms/plugins/strawberry.py:default_generate_enums", "turms/plugins/strawberry.py:generate_scalars"]}
{"id": "C67", "title": "Strawberry modules can be imported", "statement": "Executing a generated strawberry module raises nothing: every name is bound when it is used, and the statements after the classes only call methods those classes have.", "quantifier": "every schema and configuration", "why_tests_cant": "Depends on which annotations are quoted, that is on the order of all types.", "anchors": ["turms/plugins/strawberry.py", "turms/registry.py:generate_forward_refs"]}
{"id": "C68", "title": "Resolver arguments accept exactly the legal values", "statement": "The annotation of every parameter of a generated resolver accepts exactly the values GraphQL allows for the argument.", "quantifier": "every field, argument and type nesting", "why_tests_cant": "Unbounded type nesting; all values.", "anchors": ["turms/plugins/strawberry.py:recurse_argument_annotation"]}
{"id": "C69", "title": "Generation is reproducible", "statement": "Two runs on the same project in different processes either both fail or both generate, and the two modules have the same meaning: the same statements in the same order, up to the order of imports and helper classes, and every imported name stands for the same object.", "quantifier": "every schema, configuration and list of plugins, and every pair of hash seeds (set iteration orders)", "why_tests_cant": "A test process has one hash seed; the property is about all pairs of set iteration orders.", "anchors": ["turms/registry.py:generate_imports", "turms/registry.py:generate_builtins", "turms/run.py:generate_ast"]}
{"id": "C70", "title": "Generated functions have their documented, distinct and legal names", "statement": "The funcs plugin emits, for every operation and every function definition of its kind, one function named by the configured prefix followed by the operation's name in snake_case; the names are Python identifiers, no keywords, and no function replaces another function or a class.", "quantifier": "every document and funcs configuration", "why_tests_cant": "Collisions depend on all pairs of operation names, prefixes and class names.", "anchors": ["turms/plugins/funcs.py:generate_operation_func", "turms/plugins/funcs.py:camel_to_snake"]}
{"id": "C71", "title": "Accepted configurations give modules whose configured names are bound", "statement": "A configuration is accepted exactly if every Python type it names is a builtin or a dotted path and the UNSET type and instance are replaced together; every use of a configured scalar, helper replacement or additional base in a generated module is then a name that stands for the configured type; plugins, parsers, processors and stylers are accepted exactly if they can be imported.", "quantifier": "every configuration, every history of registry calls, every hash seed", "why_tests_cant": "All configurations and all orders of references; tests use a few well-formed ones.", "anchors": ["turms/config.py:PythonType.validate", "turms/config.py:validate_additional_bases", "turms/config.py:validate_unset_override", "turms/config.py:validate_importable", "turms/registry.py:reference_unset", "turms/registry.py:reference_scalar", "turms/utils.py:get_additional_bases_for_type"]}
{"id": "C72", "title": "No requested data is lost", "statement": "Whatever data an operation asks for, at any depth, directly, in inline fragments or in spread fragments, can be reached through attributes of the classes generated for it: for every type an object may have at a position there is a class for it among the values of the annotation, and every such class carries every selected field in a non-private attribute of its own, whose annotation again offers everything selected below.", "quantifier": "every schema, document, configuration, operation and every path of selected fields of any length", "why_tests_cant": "The nesting of fragments, inline fragments, interfaces and unions is unbounded, and each combination is handled by a different branch of the generator; a dropped field raises no error.", "anchors": ["turms/recurse.py:recurse_annotation", "turms/recurse.py:type_field_node", "turms/plugins/fragments.py:generate_fragment", "turms/plugins/operations.py:generate_operation", "turms/registry.py:register_interface_fragment_implementations", "turms/registry.py:register_union_fragment_members"]}
{"id": "C73", "title": "The class statements of the generated module execute", "statement": "Importing the module generated for the fragments and operations of a document does not fail in a class statement: every base of every class is a class that was bound before, no base is named twice, and the bases have a consistent method resolution order, however fragments are nested.", "quantifier": "every schema, document and set of imported base classes with any method resolution orders", "why_tests_cant": "Whether Python accepts a class depends on the linearisation of its whole ancestry, which follows the unbounded nesting of fragment spreads and the order the fragments are emitted in; each fixture exercises one hierarchy.", "anchors": ["turms/recurse.py:recurse_annotation", "turms/plugins/fragments.py:generate_fragment", "turms/plugins/fragments.py:reorder_definitions", "turms/plugins/operations.py:generate_operation", "turms/registry.py:register_interface_fragment_implementations"]}
{"id": "C74", "title": "Functions and factories find every name they use", "statement": "In a module generated with enums, inputs, fragments, operations, functions and input factories, the annotations and defaults of every function mention only names that are imported, built in or bound above it, so the module can be imported; and when a function or factory is later called, the proxy, the operation or input class and the UNSET marker its body uses are found, so every call Python accepts performs the operation or builds the input.", "quantifier": "every schema, document, functions configuration and call", "why_tests_cant": "Which names are imported or bound depends on everything generated before (an import made for one field hides that another place forgot it), and a missing name in a body only shows when that function is called with that argument left out.", "anchors": ["turms/plugins/funcs.py:generate_parameters", "turms/plugins/funcs.py:generate_variable_assignments", "turms/plugins/funcs.py:generate_operation_func", "turms/plugins/input_funcs.py:generate_input_func", "turms/registry.py:register_import"]}
{"id": "C75", "title": "What `turms init` writes can be used at once", "statement": "For each of the four templates and whatever is installed, `turms init` writes a configuration that turms accepts: one project whose plugins, stylers and processors can all be imported, whose plugins come in the order they depend on each other, which lists exactly the formatters that are installed, and which merges with the existing file (if libcst is there) only after everything else. Generating from an untouched project with functions gives, for every schema and valid document, a module that can be imported and whose functions perform their operations with the configured client.", "quantifier": "all sets of installed modules, all templates, all schemas and documents", "why_tests_cant": "The templates adapt to what is installed, and the module depends on the schema and documents the user adds; tests run in one environment with a few documents.", "anchors": ["turms/cli/main.py: build_default_settings", "turms/cli/main.py: detected_formatter_processors", "turms/cli/main.py: build_rath_template", "turms/cli/main.py: build_strawberry_template", "turms/config.py: GeneratorConfig", "turms/run.py: load_projects_from_configpath", "turms/plugins/funcs.py: FuncsPluginConfig"]}
{"id": "C76", "title": "A generated module executes from its first line", "statement": "If the configuration is accepted and generation succeeds, importing the generated module raises no NameError: the import statements, the helper classes, the generated classes and functions and the rebuild statements at the end find every name they use, given only the builtins of Python, and every class that is rebuilt is a class of the module.", "quantifier": "every accepted configuration, schema, document, list of plugins meeting their hypotheses, and every iteration order of Python's sets", "why_tests_cant": "It relates all sections of the module to one another, for every set of plugins and every hash seed.", "anchors": ["turms/run.py:generate_ast", "turms/registry.py:generate_imports", "turms/registry.py:generate_builtins", "turms/registry.py:generate_forward_refs"]}
{"id": "C77", "title": "Generation succeeds for supported schemas and documents", "statement": "For a schema and a document that are valid GraphQL, if every scalar used has a Python type, every input and enum used by a variable or input field is generated, names can be styled, and the document keeps to the supported constructs (named operations with fields at their root, no inline fragments on objects, inline fragments on a union or interface that name an object type, plain default values, fragments named with letters), the enums, inputs, fragments and operations plugins, and after them the functions and factories plugins, raise no exception and a module is generated; together with C76 that module executes, whatever the other options of the plugins and the iteration order of Python's sets.", "quantifier": "every schema, every document meeting the listed conditions, every configuration of the six plugins, every chain of shipped stylers, every iteration order of sets", "why_tests_cant": "Absence of failure over all documents and schemas of unbounded size and nesting; a test shows one document that works.", "anchors": ["turms/run.py:generate_ast", "turms/plugins/enums.py:EnumsPlugin.generate_ast", "turms/plugins/inputs.py:InputsPlugin.generate_ast", "turms/plugins/fragments.py:FragmentsPlugin.generate_ast", "turms/plugins/operations.py:OperationsPlugin.generate_ast", "turms/recurse.py:recurse_annotation", "turms/referencer.py", "turms/registry.py:ClassRegistry", "turms/plugins/funcs.py:FuncsPlugin.generate_ast", "turms/plugins/input_funcs.py:InputFuncsPlugin.generate_ast"]}
{"id": "C78", "title": "Docstrings document exactly the parameters", "statement": "Every generated function has a docstring whose section of arguments has one line per parameter of the function, in the order of the parameters and no others; the line for a variable carries its Python parameter name, says whether it may be left out, the default value written in the operation, and the descriptions the schema gives to the arguments it is passed to. Every factory of an input has a docstring naming the class and every parameter with the description of its field, exactly if documentation is wanted.", "quantifier": "every schema, every document, every configuration of the functions and factories plugins, every chain of stylers", "why_tests_cant": "The docstring is assembled in four loops separate from the ones that assemble the signature; that they agree must hold for every list of variables, extra arguments and descriptions, which samples cannot establish.", "anchors": ["turms/plugins/funcs.py:generate_query_doc", "turms/plugins/funcs.py:generate_parameters", "turms/plugins/funcs.py:generate_input_type_descriptions", "turms/plugins/input_funcs.py:generate_input_func"]}
{"id": "C79", "title": "An accepted response has what the selections promise", "statement": "If the class generated for an operation accepts a response, the response has everything the operation's selections and the schema promise: every selected field that is non-null in the schema is present, null appears only where the schema allows it, lists are where the schema has lists, an object claims the type whose fields it has, and all fields selected for that type, directly or through fragments, are there and again deliver what is selected below them.", "quantifier": "every schema, document and configuration, every operation, and every JSON value of any depth and size", "why_tests_cant": "It is a statement about all values a generated class accepts, for all generated classes; tests try a few good responses and hardly any malformed ones.", "anchors": ["turms/recurse.py:recurse_annotation", "turms/recurse.py:type_field_node", "turms/plugins/fragments.py:generate_fragment", "turms/plugins/operations.py:generate_operation"]}
{"id": "C80", "title": "Additive schema changes leave the code generated for documents unchanged", "statement": "When a schema is only added to (new types, new fields of objects and interfaces, new enum values, changed fields of inputs, a new mutation root), regenerating gives, for the same documents and configuration, exactly the same fragment classes, operation classes and functions, and generation still succeeds; everything they import, every helper class they use and every class they ask to be rebuilt is still asked for. New members of a union, new implementing types of an interface and variables listed in expand_input_types are the changes that do show.", "quantifier": "all pairs of schemas of which the second extends the first, all documents whose variables have types of the first schema, all configurations", "why_tests_cant": "it compares two runs of the generator on arbitrary schemas and arbitrary documents; a diff of two snapshots shows one pair", "anchors": ["turms/plugins/fragments.py:generate_fragment", "turms/plugins/operations.py:generate_operation", "turms/plugins/funcs.py:generate_operation_func", "turms/recurse.py:recurse_annotation", "turms/registry.py:ClassRegistry", "turms/utils.py:recurse_type_annotation"]}
{"id": "C81", "title": "Generated code is compositional", "statement": "The classes and functions generated for a fragment or an operation depend only on that definition and the fragments it needs: leaving out other definitions of the documents, or writing them in another order, generates the same statements for the remaining definitions and never makes generation fail.", "quantifier": "every schema and configuration, every valid document and every sub-document closed under the fragments it spreads, in any order, any state of the registry", "why_tests_cant": "The three plugins share a mutable registry (fragment texts, types, implementations, single annotations); a test compares a few pairs of documents, the claim is about all pairs and all orders.", "anchors": ["turms/plugins/fragments.py:generate_fragment", "turms/plugins/operations.py:generate_operation", "turms/plugins/funcs.py:FuncsPlugin.generate_ast", "turms/registry.py:ClassRegistry"]}
{"id": "C82", "title": "The settings of the generated models do not change the interface of the generated code", "statement": "Take any project and change only how the generated pydantic models behave: freeze, options and additional_config, and, for a schema without @oneOf inputs, the pydantic version. Generation then succeeds or fails as before, failing at the same plugin. If it succeeds, the module defines the same classes with the same names, bases, decorators, docstrings, fields, defaults and aliases, the same helper classes and the same functions with the same signatures and bodies, in the same order; the same classes are rebuilt at the end; and the same names are imported. The only differences are the configuration inside the model classes (model_config, Config, model_post_init), Tuple[x, ...] instead of List[x] in annotations, the spelling of the rebuild call, and the imports of List, Tuple and ConfigDict. With @oneOf inputs the pydantic version does change the classes that are defined.", "quantifier": "every schema, documents, list of plugins in any order with any settings, registry state, and any two settings of freeze, options, additional_config and pydantic version", "why_tests_cant": "The settings are read in a dozen places, per type, per field and per nesting level. A test compares two settings on one schema; that no combination of a schema, a document and settings leaks into names, fields or signatures is a claim about all of them.", "anchors": ["turms/config.py:FreezeConfig", "turms/config.py:OptionsConfig", "turms/utils.py:generate_pydantic_config", "turms/recurse.py:recurse_annotation", "turms/plugins/inputs.py:generate_input_types", "turms/plugins/funcs.py:generate_operation_func", "turms/run.py:generate_ast"]}
{"id": "C83", "title": "What the generated input models can send is exactly what the schema accepts", "statement": "Take the input types of a schema, plain ones, @oneOf ones, nested, recursive and in lists. Every JSON value that the GraphQL specification allows for such a type is the serialisation of some instance of the class generated for it, and conversely every instance is serialised to a value that the specification allows: known keys only, required keys present, every entry legal for its field at any depth, exactly one non-null entry for a @oneOf input, null only where the type is nullable. The same holds for the fields that stand for the variables of an operation. (Discriminated unions made with the custom directive @unionElementOf are left out, as the specification does not know them.)", "quantifier": "every schema, configuration, registry history, input type and JSON value", "why_tests_cant": "A test sends a few values. That no accepted value is out of reach and no reachable value is rejected, for nested and recursive inputs, is an equivalence over all values of all types.", "anchors": ["turms/plugins/inputs.py:generate_input_types", "turms/plugins/inputs.py:generate_input_annotation", "turms/plugins/inputs.py:generate_oneof_wrapper_input", "turms/plugins/inputs.py:generate_oneof_direct_union", "turms/utils.py:recurse_type_annotation"]}
{"id": "C84", "title": "Leaving out unreferenced types only removes code", "statement": "Turning on skip_unreferenced for enums and inputs never changes what is kept. If generation succeeds without the option it succeeds with it; the enum and input statements that remain are some of those generated before, unchanged and in the same order; the classes and functions generated for the documents are exactly the same; and nothing more is imported, no further helper class is defined and no further model is rebuilt. (Restrictions: a used input belongs to no discriminated union that is left out, and the fields of members of needed unions have types that are generated anyway; otherwise it is false, see the counterexamples.)", "quantifier": "every schema and valid document, every configuration of the enums, inputs, fragments, operations and functions plugins", "why_tests_cant": "A test compares the two outputs for one schema and one document. That nothing else depends on the presence of a type that is dropped - no quoted name, no import order, no choice between a direct union and wrapper classes - must hold for all schemas and documents.", "anchors": ["turms/plugins/enums.py:generate_enums", "turms/plugins/inputs.py:generate_inputs", "turms/referencer.py:create_reference_registry_from_documents", "turms/plugins/funcs.py:FuncsPlugin"]}
{"id": "C85", "title": "The synchronous and the asynchronous function of an operation agree", "statement": "If two function definitions (say a synchronous and an asynchronous one) ask for the same extra arguments, the two functions generated for an operation are the same up to async, the prefix of the name, the proxy called, await, and Iterator or AsyncIterator: same parameters, annotations, defaults and docstring, same request and same part of the result handed back. Every call the one accepts and performs, the other accepts and performs with the same variables, provided its proxy's name is not hidden by a parameter.", "quantifier": "every schema, document, configuration of the functions plugin, pair of definitions with equal extra arguments, and every call (positional and keyword arguments)", "why_tests_cant": "The two functions are generated one after the other from a registry that the first may have changed; that neither the generation of other functions in between nor any shape of variables, inputs or selections makes them drift apart is a statement about all documents, and that they send the same about all calls.", "anchors": ["turms/plugins/funcs.py:generate_operation_func", "turms/plugins/funcs.py:genereate_async_call", "turms/plugins/funcs.py:genereate_sync_call", "turms/plugins/funcs.py:genereate_async_iterator", "turms/plugins/funcs.py:genereate_sync_iterator"]}
{"id": "C86", "title": "A merged file can be regenerated again and again", "statement": "With the merge processor, a file keeps what its user wrote over any history of runs (each from whatever schema and documents) and edits: function and method bodies, comments at attributes, and statements and members no generated code has the name of. And if nothing changes, running turms again writes the same text every time once the first merge is done, when merging is the last processor, as in the project turms init writes.", "quantifier": "every existing file, every sequence of runs with arbitrary generated modules and of edits, every number of runs", "why_tests_cant": "A test merges once or twice. What is left after a history of regenerations and edits of any length, and that no run ever starts to change the file again, needs an invariant.", "anchors": ["turms/processors/merge.py:merge_code", "turms/processors/merge.py:MergeProcessor", "turms/processors/disclaimer.py:DisclaimerProcessor", "turms/run.py:process_code"]}
{"id": "C87", "title": "The variables a client can send are those the server accepts", "statement": "The Arguments class inside the class of an operation stands for the variables of that operation: a map of variables is what some instance of it is serialised to exactly when the server accepts the map for the operation. Undeclared variables cannot be sent, required ones cannot be left out, and each value is one its type allows, however deep the input types refer to each other.", "quantifier": "every schema, document, configuration, operation and map of variables, of any size and nesting", "why_tests_cant": "A test sends a few variable maps. That no accepted map is impossible to send, and no sendable one is rejected, is an equality of two infinite sets for every schema and document.", "anchors": ["turms/plugins/operations.py:generate_operation", "turms/recurse.py:recurse_type_annotation", "turms/plugins/inputs.py:generate_input_annotations"]}
{"id": "C88", "title": "Well-typed calls send variables the server accepts", "statement": "Call a generated query or mutation function with arguments that respect the annotations of its parameters, leaving out what has a default. The variables handed to the proxy are then accepted by the server for that operation: all required ones are present, none is undeclared, and each value is legal for its type, also for variables whose fields were expanded into parameters. Conversely every accepted map of variables is sent by such a call, and a well-typed call of an input factory builds a legal value of its input type.", "quantifier": "every schema, document, configuration, generated function and call with any positional and keyword arguments of any depth", "why_tests_cant": "A test makes a few calls. That no well-typed call is ever rejected for its variables is a claim about all values of all parameter annotations of all generated functions.", "anchors": ["turms/plugins/funcs.py:generate_parameters", "turms/plugins/funcs.py:generate_input_type_params", "turms/plugins/funcs.py:generate_variable_assignments", "turms/plugins/funcs.py:unset_union_annotation"]}
{"id": "C89", "title": "The server's answer reaches the caller with the annotated type", "statement": "Call a generated function and let a conforming server answer. The value handed back is the server's value: the whole answer, or the value under the response key of the only root field. It is of the type the function is annotated with. And whatever the server answers, if the generated classes accept it, then the value handed back has everything the operation's selections promise.", "quantifier": "every schema, document, configuration, generated function, call and answer of any depth", "why_tests_cant": "A test sees a few answers. That the attribute read by the function, the annotation of the function and the class that parses the answer fit together is a claim about all documents and all answers.", "anchors": ["turms/plugins/funcs.py:genereate_async_call", "turms/plugins/funcs.py:genereate_sync_call", "turms/plugins/funcs.py:get_return_type_string", "turms/plugins/operations.py:generate_operation", "turms/recurse.py:recurse_annotation"]}
{"id": "C90", "title": "Strawberry modules define the schema's directives and apply them legally", "statement": "A strawberry module begins with exactly one class per custom directive of the schema that is not skipped: called like the directive, declared for exactly its locations, with one field per argument that accepts exactly the values of the argument's type and has its default. Wherever the module applies a directive, it calls that class with the arguments of the application, and Python accepts the call.", "quantifier": "every schema, set of directives and applications, configuration and naming style", "why_tests_cant": "A test shows a directive or two. That every application fits the class generated for its definition is a claim about all schemas, and it fails for argument names no test happens to use.", "anchors": ["turms/plugins/strawberry.py:default_generate_directives", "turms/plugins/strawberry.py:build_directive_type_annotation", "turms/plugins/strawberry.py:generate_directive_keywords", "turms/plugins/strawberry.py:convert_valuenode_to_ast"]}
{"id": "C91", "title": "The document that is sent is the document that was written", "statement": "The text in a generated operation class, read by the grammar of GraphQL, is exactly the operation the user wrote - kind, name, variables with types and defaults, selections, aliases, arguments with all their constants - together with the fragments it needs, each once and with __typename requested. Nothing is lost, changed or added by printing, embedding fragments, parsing and printing again.", "quantifier": "every schema, document, configuration and naming style for which the fragments and operations plugins succeed", "why_tests_cant": "The text goes through print, textual search, parse and print again; a name, constant, nesting depth or line length for which one of these steps is not inverse to the other changes silently what the server is asked. Tests compare a few documents.", "anchors": ["turms/utils.py:auto_add_typename_field_to_fragment_str", "turms/plugins/operations.py:generate_operation", "turms/plugins/fragments.py:generate_fragment"]}
{"id": "C92", "title": "Answers to documents with @include and @skip are accepted", "statement": "The operation and fragment classes generated for a document whose selections carry @include or @skip accept every answer a conforming server may send, for all values of the Boolean variables of the request: entries of selections whose conditions do not hold are absent from the answer and the class does not insist on them. This needs the conditional fields to be nullable (or selected unconditionally elsewhere under the same key); for a conditional field that is not nullable the generated field is required and the answer without it is rejected.", "quantifier": "every schema, every document with conditions on fields, fragment spreads and inline fragments at any depth, every assignment of the Boolean variables, every answer of a conforming server", "why_tests_cant": "The answers range over all combinations of conditions, runtime types and nesting; a test fixes one document, one assignment and one answer.", "anchors": ["turms/recurse.py: recurse_annotation", "turms/plugins/operations.py: generate_operation", "turms/plugins/fragments.py: generate_fragment"]}
{"id": "C93", "title": "Generated classes carry the documentation of the schema and the document", "statement": "The class generated for an operation has the documentation of the operation (C95) as its docstring; below the declaration of each root field stands the description of that schema field, with the reason if it is deprecated and field metadata is documented; its Meta class names the configured domain and only that. Classes of fragments on objects and interfaces (and of each implementing type), of selection sets, of inputs and of object models have the description of their GraphQL type as docstring, with a fixed text (none for object models) when there is none or documentation is switched off. The alias of a fragment on a union is followed by the description of the union. The Meta class of a fragment on an object names the fragment and its type, and exists only if asked for.", "quantifier": "every schema, every document, every configuration and every state of the generator from which generation succeeds", "why_tests_cant": "Which text goes with which class depends on the schema, the document, four switches and the position of the definition; a test fixes one combination.", "anchors": ["turms/plugins/operations.py: generate_operation", "turms/plugins/fragments.py: generate_fragment", "turms/plugins/inputs.py: generate_input_type", "turms/plugins/objects.py: generate_types", "turms/recurse.py: type_field_node", "turms/utils.py: compose_field_documentation"]}
{"id": "C94", "title": "Generated classes have the base classes they are configured to have", "statement": "The class of an operation inherits from exactly the bases configured for its kind, its Arguments class (there only if asked for) from those configured for arguments; where none are configured, from the bases of all objects. The class of a fragment on an object inherits from the classes of the fragments spread in it, the bases configured for its type, those of fragments, those of fragments on objects and those of all objects, in this order; the classes of a fragment on an interface from those configured for the type and for interfaces; the member classes of a fragment on a union from those of fragments and of all objects. The class of a selection at any depth inherits from the classes of the spread fragments, or the bases configured for its type if there are none, and those of all objects. Inputs, object models and strawberry classes inherit from the bases configured for their type and for their plugin.", "quantifier": "every schema, every document, every configuration of bases and every state of the generator from which generation succeeds", "why_tests_cant": "Nine configuration keys, with fallbacks between them, meet seven kinds of classes at any depth; a test fixes one combination, and a base left out of one kind of class goes unnoticed until its methods are missed.", "anchors": ["turms/plugins/operations.py: get_query_bases, get_mutation_bases, get_subscription_bases, get_arguments_bases", "turms/plugins/fragments.py: get_fragment_bases, generate_fragment", "turms/recurse.py: recurse_annotation", "turms/utils.py: get_additional_bases_for_type, get_interface_bases", "turms/plugins/inputs.py: generate_input_type", "turms/plugins/objects.py: generate_types", "turms/plugins/strawberry.py: generate_inputs, generate_types"]}
{"id": "C95", "title": "An operation is documented by the comments between its first line and its first selection", "statement": "The docstring of an operation's class is made of the comments on the lines from the one the operation starts on to the last one before its first selection: of each of these lines that has a #, what follows the last # on it, one per line and in order; a fixed text stands there if there is nothing. Comments above the operation and from its first selection on play no part, so the same operation is documented in the same way wherever it stands in whatever file.", "quantifier": "every source text, every position of the operation and of its first selection in it, every document, schema and configuration with which generation succeeds", "why_tests_cant": "The lines are found by two different ways of counting lines, Python's and GraphQL's, and the text by a greedy regular expression; a test has one text with one layout.", "anchors": ["turms/utils.py: inspect_operation_for_documentation, commentline_regex", "turms/plugins/operations.py: generate_operation"]}
