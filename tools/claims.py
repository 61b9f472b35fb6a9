c("C09", "proved", "c09_add_model c09_add_model_first_wins", "")
c("C10", "proved", "c10_mention_security_scheme c10_first_wins", "")
c("C11", "proved", "c11_verify_direct", "")
c("C12","partial","c12_is_false c12_verify_partial c12_exact","False of the code: links inside inline schemas are not visited (witness). Proved for registries whose inline members carry no links. c12_exact says exactly when there is no dangling link.")
c("C14", "proved", "c14_apply_params", "")
c("C15", "proved", "c15_apply_params_compose c15_apply_params_empty c15_apply_params_idem c15_apply_params_links", "")
c("C16", "proved", "c16_add_property", "")
c("C17", "proved", "c17_merge c17_merge_symm_unit", "")
c("C18", "partial", "c18_is_false c18_failed_merge_partial c18_exact", "False of the code: properties inserted before the conflict stay (witness). Proved: the exact state after a failed merge.")
c("C19", "proved", "c19_try_merge", "")
c("C43", "proved", "c43_variant_words c43_any_variant", "")
c("C44", "proved", "c44_field_words c44_any_field", "")
c("C45", "partial", "c45_no_panic_is_false c45_variant_panics_iff c45_field_panics_iff c45_no_panic_partial", "False of the code (witnesses `__`, `Ä`). Proved: the exact panic sets, and no panic on ASCII identifiers with a non-underscore character.")
c("C46", "partial", "c46_injective_is_false c46_variant_injective_partial c46_field_injective_partial c46_field_exact c46_variant_exact", "False in general (witnesses). Proved for identifiers in the usual style; c46_field_exact and c46_variant_exact say exactly which names clash under each rule.")
c("C47", "proved", "c47_rule_names c47_distinct c47_unknown_ignored", "")
c("C01","proved","c01_links_resolve c01_links_resolve_from_empty","")
c("C02","proved","c02_registered_is_kept c02_get_schema_keeps","")
c("C03","proved","c03_mention_idempotent","")
c("C04","proved","c04_mention_registers","")
c("C05","proved","c05_context_independent","")
c("C08","proved","c08_registered_mention_returns c08_settled_returns c08_struct_returns","")
c("C13","proved","c13_generated_verifies c13_document c13_mixed c13_candid_needed","c13_document: the components of described documents; c13_mixed: also where types are documented by hand, by impls that link only to names they know to be registered (needed: c13_candid_needed).")
c("C28","proved","c28_required_declared c28_registry c28_document c28_mixed c28_whole_needed","c28_document: components of documents and the schemas that operations and path items show. c28_mixed: the same in programs with hand written impls that do so themselves, which is needed (c28_whole_needed).")
c("C34","proved","c34_inline c34_by_reference_is_link","")
c("C35","proved","c35_wrappers_transparent","")
c("C37","proved","c37_sequences c37_maps c37_tuples c37_always_inlined","")
c("C06","partial","c06_is_false c06_is_false_same_identifier c06_registry_is_determined c06_order_independent_partial c06_any_order_partial c06_exact","False of the code (witnesses: Pet/Option<Pet>; two structs with one identifier). Proved for name-consistent programs: the final registry is exactly the schemas of the types mentioned by reference. c06_exact: exactly for those.")
c("C07","partial","c07_is_false c07_recursive_never_returns c07_finite_returns_partial c07_returns_iff_partial","False of the code: recursive types do not return. Proved: returns exactly when the expansion is finite.")
c("C42","proved","c42_struct_fields c42_enum c42_explicit_wins c42_explicit_wins_variant c42_raw_prefix","")
c("C48","proved","c48_duplicates_rejected c48_field c48_variant c48_container","")
c("C49","proved","c49_unknown_opg_rejected c49_unknown_serde_ignored","")
c("C50","proved","c50_order_irrelevant","")
c("C51","proved","c51_tagging c51_shape","")
c("C52","partial","c52_is_false c52_panics_iff c52_no_panic_partial","False of the code (five witnesses). Proved: the exact set of inputs on which the macro panics, and its absence elsewhere.")
c("C53","proved","c53_errors c53_mistakes c53_no_code","")
c("C27","proved","c27_struct c27_source","")
c("C29","proved","c29_unit_enum","")
c("C30","partial","c30_is_false c30_repr_exact c30_repr_partial c30_exact","False for variants without an explicit discriminant (empty oneOf). Proved: the exact documented schema, and the property when every serialized variant has an explicit discriminant; c30_exact: exactly then.")
c("C31","proved","c31_untagged c31_external c31_adjacent c31_internal","")
c("C32","partial","c32_is_false c32_internal_tag_partial c32_exact","False for inner schemas that are not objects and for a field named like the tag; proved otherwise. c32_exact: exactly when an alternative carries its tag.")
c("C33","partial","c33_is_false c33_adjacent_partial c33_exact","False for enums with unit variants only; proved for enums with data. c33_exact: exactly for those; the others are documented as strings.")
c("C36","partial","c36_is_false c36_option_partial c36_exact","False for oneOf schemas and for links; proved for inline single schemas. c36_exact: exactly when the inner schema is not a oneOf, allOf or anyOf.")
c("C38","proved","c38_newtype c38_chain","")
c("C39","partial","c39_is_false c39_nullable_partial c39_other_shapes c39_shapes","False for newtype structs, unit enums and oneOf enums; proved for the other shapes. c39_other_shapes says what happens in all the other shapes, c39_shapes that there are no more.")
c("C65","proved","c65_parsed","")
c("C66","proved","c66_explicit_newtype c66_tuple_struct","")
c("C20","partial","c20_is_false c20_distinct_keys_partial c20_exact","False when a path is described twice (paths is a vector); proved for documents whose path lists have no two equally written paths. c20_exact: exactly for those.")
c("C21","proved","c21_schema_injective c21_reference_injective","Holds even if the order of object entries is forgotten.")
c("C22","partial","c22_is_false c22_document_injective_partial c22_exact","False because path rendering is not injective; proved for paths whose segments contain no '/' and whose literals are not of the form {..}. c22_exact says exactly which documents are written the same way.")
c("C23","partial","c23_render c23_is_false c23_render_injective_partial c23_read_exact","The rendering equation is proved in full; injectivity is false in general and proved for plain segments. c23_read_exact: the paths that can be read back are exactly the plain ones.")
c("C25","proved","c25_maps_sorted c25_insertion_order c25_document_ascending c25_operation_ascending c25_item_ascending c25_object_ascending c25_declaration_order","")
c("C26","proved","c26_document c26_tag_server c26_operation c26_response c26_parameter c26_request_body c26_path_item c26_object_schema c26_no_false_or_null","")
c("C24","proved","c24_refs_resolve c24_needs_registered_expressions","The links of schemas supplied by the user as Rust expressions have to be registered; a witness shows this is needed.")
c("C56","partial","c56_is_false c56_is_false_literal c56_template_parameters_partial c56_exact c56_mixed_partial","False when a parameter declared for the path has the name of a template parameter, and for literal segments written like parameters (witnesses); proved otherwise. c56_exact: exactly when the path declares no parameter of that name. c56_mixed_partial: also with hand written impls.")
c("C57","proved","c57_order c57_operation_order c57_mixed","")
c("C58","proved","c58_tags c58_security_schemes c58_operations c58_operation c58_path_item c58_info c58_mixed_tags c58_mixed_schemes c58_mixed_operations c58_spares_needed","c58_mixed_*: the same in programs with hand written impls; a scheme that such an impl mentions counts only if none is declared under its name (c58_spares_needed).")
c("C59","proved","c59_parameters c59_body c59_response c59_mixed_parameters c59_mixed_bodies","The mixed theorems: also with hand written impls.")
c("C60","partial","c60_is_false c60_schemes_registered_partial c60_exact c60_mixed_exact","False of names given as literals (witness); proved if those are registered. c60_exact: exactly if those are; c60_mixed_exact: also in programs with hand written impls.")
c("C61","partial","c61_is_false c61_is_false_not_last c61_callbacks_partial c61_literal c61_exact c61_mixed_exact","False of callbacks whose name is a string literal (witnesses); proved for names written as identifiers. c61_literal: those with a literal name are written without paths. c61_mixed_exact: also with hand written impls.")
c("C62","partial","c62_is_false c62_is_false_not_ascii c62_name c62_bare_segment_partial c62_exact","False of types with generic arguments and of names that start outside ASCII (witnesses); proved otherwise. c62_exact gives the name for every text of a type.")
c("C63","proved","c63_describe_type c63_describe_type_unique c63_object","")
c("C64","proved","c64_order_independent","")
c("C54","proved","c54_bounds","")
c("C55","partial","c55_is_false c55_mentioned_are_bounded_partial c55_exact","False for skipped fields of tuple structs and variants (witness); proved otherwise. c55_exact: a type parameter is bounded exactly if it occurs in a serialized field.")
c("C40","partial","c40_conforms_partial c40_registered_partial c40_option_is_false c40_tuple1_is_false c40_nan_is_false c40_unit_variant_is_false c40_tagged_units_is_false c40_adjacent_struct_is_false c40_flatten_is_false c40_transparent_is_false c40_newtype_explicit_is_false c40_repr_is_false c40_option_oneOf_is_false c40_units_exact c40_unit_variants_rejected c40_adjacent_structs_rejected c40_struct_needs","False of the code in eleven ways (one witness each). Proved for every program whose types avoid them, links resolved in the final registry, oneOf read as at least one (the other reading: C93). For enums without data the criterion is exact; unit variants next to others, adjacently tagged struct variants and required flattened fields fail always.")
c("C41","partial","c41_is_false c41_disjoint_partial c41_overlap_rejected c41_exact c41_scalars","False of components that share a JSON value (witness). Proved: a tuple with pairwise disjoint components is accepted, one with a shared item is rejected, and exactly when all values of a tuple are accepted, for any components with values and in terms of their JSON types for scalars.")
c("C67","partial","c67_serialized c67_generated_partial c67_necessary c67_is_false c67_mixed_partial c67_mixed_is_false","False of degenerate types: enums without serialized variants, empty tuple structs, two fields of one name, tag equal to content, repr enums without discriminants (witnesses). Proved for all other types; the condition on types is shown necessary. c67_mixed_partial: programs with hand written impls that make legal schemas; false if such a schema requires what is not among its properties (witness).")
c("C68","partial","c68_serialization c68_described_partial c68_exact c68_is_false c68_body_is_false c68_mixed_partial c68_mixed_exact","Serialization: exact characterisation of the documents written legally. describe_api!: false of descriptions without paths or responses, with impossible status codes, API keys in the path or odd scheme names (witnesses); proved for all others. c68_exact: which descriptions have a legal document, exactly. c68_mixed_partial, c68_mixed_exact: the same in programs with hand written impls.")
c("C69","partial","c69_names_partial c69_is_false c69_exact c69_document_partial c69_document_exact","False of raw and non-ASCII identifiers (witnesses). Proved for programs whose types have plain ASCII identifiers. c69_exact: the names are legal exactly if the identifiers of the types used by reference are. The document theorems say the same of what describe_api! produces; programs with hand written impls are in c67_mixed_partial.")
c("C70","partial","c70_exact c70_accepts c70_text_partial c70_times_is_false c70_far_dates_is_false","Exact for fixed-size integers, chars, strings, booleans; every value accepted for all primitives; exact for UUIDs and dates of four-digit years. False of date-times, documented with format date, and of chrono dates outside years 0-9999.")
c("C71","partial","c71_examples_partial c71_exact c71_numbers c71_is_false c71_repr_is_false","False of examples for integers and numbers, which are written as strings (c71_numbers: of every such field of a struct; witnesses: an attribute, and a repr enum without attributes). Proved for programs with examples on strings only. c71_exact: the schemas whose example fits.")
c("C72","partial","c72_field_partial c72_is_false c72_other_fields c72_exact","False of fields whose type is referenced: a bare $ref is written (witness). Proved for every inlined field. c72_other_fields: the other fields are written as a bare $ref or as {}.")
c("C73","proved","c73_reads c73_unambiguous","The rules of the macro, transcribed on token trees, against a declarative grammar.")
c("C74","partial","c74_omit c74_same_partial c74_add_is_false","Leaving out is proved. Adding is false: no comma is accepted after the last path of a callback (witness). Two accepted inputs that differ in trailing commas give the same document.")
c("C75","proved","c75_reads c75_unambiguous","The rules of the macro, transcribed on token trees, against a declarative grammar.")
c("C76","partial","c76_docs_neutral_partial c76_link_is_schema c76_is_false c76_is_false_names","Missing: fields marked nullable that are inlined in one program and referred to in the other (a link drops the mark, inlining keeps it: witness), and names used for several types (witness).")
c("C77","partial","c77_accepts c77_scoped_partial c77_is_false c77_builtin c77_limits","Missing: the forms kind: Type and kind(\"format\"): Type, whose expansion refers to an undeclared type T (witness).")
c("C78","proved","c78_const_names","")
c("C79","partial","c79_precise_partial c79_tuple_is_false c79_unit_is_false c79_external_is_false c79_adjacent_is_false c79_tuple_always c79_one_tuple_always c79_texts_always c79_null_always c79_external_always c79_adjacent_always c79_units_exact","Missing: tuples, (), char, enums without tag or with tag and content, nullable structs and links; metadata nullable and variants at the mention; ranges of integers. The property is false of these, not only of the witnesses but of all tuples, one-tuples, (), char, nullable structs, externally tagged enums with data and adjacently tagged ones (c79_*_always); exact criterion for enums without data (c79_units_exact).")
c("C80","proved","c80_read c80_read_paths c80_read_schema c80_read_scheme c80_exact","c80_read_paths also recovers the segments of paths, for segments without slash and literals not of the form {..}; else their text is recovered. c80_exact: exactly for those.")
c("C81","partial","c81_placed c81_accepts_partial c81_only_partial c81_is_false_repeated","The places hold for all descriptions whose document has no repeated key (c81_placed). Acceptance holds for faithful types (C40) and the converse for precise types (C79), names being used for one type each; outside these the property is false (witnesses under C20, C40, C79, and c81_is_false_repeated). Payloads of literal-named callbacks are not written (C61).")
c("C82","proved","c82_written_out c82_instance c82_arguments c82_same_schema","")
c("C83","partial","c83_is_false c83_first_wins c83_exact c83_inline_partial c83_one_instance_partial","False: instances share one component name, the first mentioned wins (c83_is_false, c83_first_wins). Proved for inline types and when one instance is linked; c83_exact: the links to the second are right exactly if both have the same schema.")
c("C84","partial","c84_is_false c84_is_false_key c84_bounds_suffice_partial","False for associated types below other types, for keys of maps (K: Serialize is needed, K: OpgModel is written) and for skipped positional fields. Proved otherwise.")
c("C85","partial","c85_is_false c85_is_false_key c85_bounded_are_asked_partial c85_exact","False for fields with an explicit type and for keys of maps. Proved: without explicit types each bounded parameter occurs in a type the generated code asks for; c85_exact says which bounds are superfluous in that sense.")
c("C86","partial","c86_accepted_is_read_partial c86_range_is_false c86_length_is_false c86_optional_is_false c86_skipped_is_false c86_unknown_is_false c86_external_is_false c86_missing_always c86_unknown_always c86_length_always c86_scalars_exact","False: bounds of integers and lengths of arrays are not documented; skip_serializing_if without default is documented as optional; fields with skip_serializing are not documented although reading needs them; deny_unknown_fields and the keys of externally tagged enums are not documented. Proved for the types without these (Readable), whatever serde-only attributes the program uses. The _always theorems show that every struct with such a field or attribute, and every sized array and tuple, is a counterexample.")
c("C87","partial","c87_read_is_accepted_partial c87_option_is_false c87_default_is_false c87_array_is_false c87_unit_variant_is_false c87_tuple_is_false c87_missing_always c87_arrays_always c87_scalars_exact","False: fields of type Option and fields with serde(default) may be missing but are documented as required; serde_json also reads structs from arrays and unit variants from objects; one-tuples. Proved for the types without these (Documented) and the usual forms. The _always theorems show that every struct with such a field, and every array, is a counterexample.")
c("C88","partial","c88_requests_partial c88_complete_partial c88_is_false_range","False as C86 and C87 are (bounds of integers are not documented). Proved for the types that are readable (C86) or documented in full (C87), of documents without repeated keys and with a name per type; together an equivalence.")
c("C89","partial","c89_distinct_partial c89_names c89_word_is_false c89_place_is_false","False of unknown words, which all have the message `unknown attribute`, and of the place: every unknown attribute is called one of a variant (witnesses). Proved: otherwise the message determines the mistake, and names or shows what it is about. Texts of syn and the tokens pointed at are not modelled.")
c("C90","proved","c90_same_code c90_same_document c90_renamed c90_accepted c90_without c90_shorthand c90_mixed","For types without type parameters, also next to hand written impls (c90_mixed); the identifier of the type itself is its name in the document and is kept.")
c("C91","proved","c91_local c91_local_types c91_impls c91_mixed","Reached types are those of the declared APIs and, recursively, of fields that are not skipped; in programs with hand written impls (c91_impls, c91_mixed) those of the calls that impls may make.")
c("C92","partial","c92_same_item c92_schemas_kept_at_end c92_together c92_schemas_kept_partial c92_join_partial c92_is_false c92_is_false_joined c92_mixed_kept_at_end","False if names clash: a further path in front can change a schema, and two descriptions can lose their document when joined (witnesses). Proved without conditions: path items, further paths at the end (also where types are documented by hand: c92_mixed_kept_at_end), contents of a joined document. Proved for programs with one type per name: schemas kept wherever paths are added, existence of the joined document and its schemas.")
c("C93","partial","c93_readings c93_conforms_partial c93_internal c93_untagged c93_external c93_scalars_external c93_scalars_untagged c93_repr_rejects c93_is_false","False of the code: {\"Name\": \"x\"} of enum Key { Name(String), Title(String) } matches both alternatives (witness), and number enums with two variants accept nothing. Proved: how the two readings of oneOf relate; acceptance for programs whose alternatives tell values apart; that internally tagged enums with different variant names always do, and enums of structs do if each variant requires a key the others lack; the exact criterion for enums of scalars.")
c("C94","partial","c94_exact c94_is_false c94_values c94_path_parameters c94_typed c94_ambiguous c94_mixed_exact c94_mixed_parameters","False of literals with braces: \"{x}\" stands for one URL but is published as a template (witness). c94_exact: the URLs agree if and only if literals contain no { and names no }. Proved for all descriptions: values are determined, path parameters occur in the path, and when paths compete. The schema of a value is that of its type if the name is used once (else C56, C58). The mixed theorems: also with hand written impls.")
c("C95","partial","c95_old_values c95_accepted_partial c95_old_clients_partial c95_required_rejects c95_is_false c95_mixed_values c95_mixed_partial","c95_old_values holds of all programs, and c95_mixed_values of those that write some types by hand. That documents accept the old values is proved for the types that are faithful to their values (C40), also in published documents together with what the service reads (C81, C88), and in those of programs with hand written impls (c95_mixed_partial, with the hypotheses of C119 and C120). False of other changes: a further required field makes the document reject every value of the old version (c95_required_rejects, witness c95_is_false).")
c("C96","partial","c96_narrower_partial c96_same_partial c96_published_partial c96_is_false c96_is_false_exclusive","Proved in the inclusive reading of oneOf, where every name is used for one type, internal tags are not names of fields, and enums of unit variants keep being such; also between published documents. False otherwise: an enum of unit variants that gets a variant with data no longer accepts its strings (c96_is_false), and in the exclusive reading a further variant of an untagged enum may match too (c96_is_false_exclusive).")
c("C97","partial","c97_account c97_account_type c97_components_partial c97_total_partial c97_document_account c97_document_partial c97_is_false c97_is_false_tagged","c97_account holds of all programs: forty nodes for each node of the declaration besides the schemas copied into it; c97_document_account is the account for whole described documents. The bound on documents is proved for programs in whose schemas no other derived type is copied. It is false with copies: types that are #[opg(inline)] (c97_is_false) and newtype variants of internally tagged enums (c97_is_false_tagged) make documents exponentially larger than programs.")
c("C98","partial","c98_calls c98_once_partial c98_unique_partial c98_linear_partial c98_is_false c98_is_false_tagged c98_is_false_names","The calls a run makes are specified by the relation Trace, which every run meets and which determines them (c98_calls). At most one call for each derived type, and linearly many altogether, is proved for programs in whose schemas no other derived type is copied. It is false with copies: #[opg(inline)] types (c98_is_false) and newtype variants of internally tagged enums (c98_is_false_tagged) are generated anew for each copy, exponentially often in nested types. It is also false of types that need themselves, which return only where another type has taken a name of theirs (c98_is_false_names); where names are unique a returned run is enough (c98_unique_partial).")
c("C99","partial","c99_used_partial c99_document_partial c99_is_false_fields c99_is_false_names c99_is_false_replaced","Proved for registries (c99_used_partial) and for written documents (c99_document_partial) if the types reached have different identifiers, the written fields of a struct have different keys and each type of the description is written somewhere. Without each of these it is false: c99_is_false_names, c99_is_false_fields, c99_is_false_replaced.")
c("C100","proved","c100_macro c100_programs c100_types c100_calls c100_documents c100_mixed c100_option c100_heeded_needed","c100_option: the claim is not about Option, which is documented as nullable. c100_mixed: also where types are documented by hand, by impls that pointers heed; others are documented differently behind pointers (c100_heeded_needed, c103_pointer_is_false).")
c("C101","partial","c101_macro_partial c101_documents_partial c101_mixed_partial c101_is_false_tuple c101_is_false_variant c101_is_false_adjacent c101_positional","Proved for skipped named fields of structs, skipped variants unless all variants with fields are skipped, and skipped named fields of variants unless the enum is adjacently tagged. False otherwise (witnesses c101_is_false_*); c101_positional: on the other fields skip has no effect on the generated code at all.")
c("C102","partial","c102_macro_partial c102_programs_partial c102_schema_partial c102_calls_partial c102_documents_partial c102_values c102_is_false_fields c102_is_false_types","Proved if no two written fields of a struct or struct variant go by one name, the tag of an adjacently tagged enum differs from the content key, and each name is used for one type. False otherwise: the last of two fields of one name and the first of two types of one name are documented (witnesses c102_is_false_*).")
c("C103","proved","c103_kept c103_deterministic c103_mention_registers c103_mention_exact c103_methods c103_links c103_mixed c103_derived c103_candid_needed c103_pointer c103_pointer_is_false","Code is a free tree of calls of the methods of Components and OpgModel; direct changes of the public fields of Components are not modelled. c103_candid_needed: an impl that makes up a name can leave it dangling. c103_pointer_is_false: pointers do not heed an overridden select_reference.")
c("C104","proved","c104_derived c104_deterministic c104_schemas c104_refs c104_security c104_only_schemas c104_by_hand c104_candid_needed","Schemas given as Rust expressions and schemes named by literals have to be registered (hypotheses, as in C24 and C60). c104_candid_needed: an impl that makes up a name puts a dangling reference into the document.")
c("C105","proved","c105_asks_exactly c105_nothing","Also gives c85_exact.")
c("C106","proved","c106_calls c106_documents c106_values c106_names c106_macro","No hypothesis on names or finiteness.")
c("C107","proved","c107_calls c107_documents c107_values c107_macro c107_one","Up to descriptions, formats and examples (C106). References written out as Rust expressions in an API must be stable under the renaming. An example shows that different names are needed.")
c("C108","partial","c108_newtypes_partial c108_published_partial c108_is_false c108_is_false_names","False in general: a field marked `nullable` loses the mark when its type gets a newtype, since a link has no place for it (c108_is_false), and a newtype used with and without Option has one component for both (c108_is_false_names). Proved when nullable fields are linked in both programs or in neither, and each name is used by reference for one type.")
c("C109","proved","c109_document c109_whole c109_sections c109_mixed c109_operation c109_item c109_overridden","The schemas of components need consistent names (C06, C64); everything else does not.")
c("C110","proved","c110_exact c110_types c110_any_order c110_mixed","What does not compile and what panics or does not end both count as no document.")
c("C111","partial","c111_effective_partial c111_operation_exact c111_path_exact c111_is_false","False of the code: parameters are kept by name alone, so a query parameter replaces a header of the same name (c111_is_false). Proved if neither list uses a name for two places and no declared parameter has the name of a segment of its path; these conditions are shown to be exact for each list.")
c("C112","partial","c112_meaning c112_access_partial c112_operation_partial c112_exact c112_open c112_is_false","False of the code if a name is used for two schemes: a scheme declared under the name of a variable replaces it (c112_is_false). Proved if every name is used for one scheme, where for one operation only the names in its own alternatives matter (c112_operation_partial), and exactly for operations with one alternative of one scheme (c112_exact); c112_meaning says for all descriptions what documents ask for, and c112_open that exactly the operations without alternatives are open.")
c("C113","partial","c113_requests_partial c113_read_partial c113_operations_partial c113_is_false","False of the code if a header and a query parameter share a name (c113_is_false; also C94, C111, C112). Proved for descriptions with one type and place for each parameter name, no braces in literal segments, and one scheme for each security name.")
c("C114","partial","c114_sent_partial c114_received_partial c114_written_partial c114_read_partial c114_is_false","False of types whose schemas are wrong about them: one-tuples are written as arrays and documented as their component (c114_is_false; more in C40 and C86). Statuses and presence of bodies hold for all descriptions; bodies follow for types that are faithful (C40) and readable (C86).")
c("C115","partial","c115_requests_partial c115_published_partial c115_clients_partial c115_answers c115_is_false","False of the code if names are used twice: a scheme declared later under the name of a variable in use replaces it, and the document no longer takes the password (c115_is_false). Proved for descriptions with one type and place for each parameter name, no braces in literal segments and one scheme for each security name; types change as in C96, or as in C95 for clients that write the earlier types.")
c("C116","partial","c116_operations c116_ids c116_templates_partial c116_is_false","Places and ids are proved for all descriptions; callbacks with a literal name have no paths in documents (C61), and count as such. For path templates the property is false of the code if literal segments contain braces (c116_is_false); proved without them.")
c("C117","proved","c117_structure c117_items c117_operations c117_places c117_ids c117_order","")
c("C118","partial","c118_sorted c118_placed c118_schemas c118_meaning c118_access_partial c118_requests_partial c118_operations_partial c118_sent_partial c118_received_partial c118_is_false","False as stated where an impl mentions a security scheme under a name that an operation uses for another (c118_is_false); proved for impls that do not, with the conditions of C112-C114.")
c("C119","partial","c119_registered c119_accepts_partial c119_exclusive_partial c119_internal c119_structs c119_is_false","False of impls that register schemas under names of other types (c119_is_false); proved for unique names, faithful types (C40) and impls that override neither get_schema_with_params nor select_reference (except to be always inlined).")
c("C120","partial","c120_read_partial c120_complete_partial c120_requests_partial c120_sent_partial c120_received_partial c120_is_false","False of impls that register schemas under names of other types (c120_is_false); proved for unique names, readable and documented types (C86, C87), and impls that override neither get_schema_with_params nor select_reference (except to be always inlined).")
c("C121","partial","c121_requests_partial c121_readers_partial c121_answers_partial c121_wider c121_narrower c121_is_false","False if names are used twice (c121_is_false, as C115); proved for names that stand for one scheme, clear paths, and the types of C120. c121_wider and c121_narrower are unrestricted.")
c("C122","partial","c122_only_partial c122_responses_partial c122_is_false","False of impls that register schemas under names of other types (c122_is_false); proved for unique names, precise types (C79), and impls that override neither get_schema_with_params nor select_reference (except to be always inlined).")
