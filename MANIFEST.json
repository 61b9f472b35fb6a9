{
 "claims": [
  {
   "property": "C09",
   "status": "proved",
   "theorems": [
    "Verif.c09_add_model",
    "Verif.c09_add_model_first_wins"
   ],
   "note": ""
  },
  {
   "property": "C10",
   "status": "proved",
   "theorems": [
    "Verif.c10_mention_security_scheme",
    "Verif.c10_first_wins"
   ],
   "note": ""
  },
  {
   "property": "C11",
   "status": "proved",
   "theorems": [
    "Verif.c11_verify_direct"
   ],
   "note": ""
  },
  {
   "property": "C12",
   "status": "partial",
   "theorems": [
    "Verif.c12_is_false",
    "Verif.c12_verify_partial",
    "Verif.c12_exact"
   ],
   "note": "False of the code: links inside inline schemas are not visited (witness). Proved for registries whose inline members carry no links. c12_exact says exactly when there is no dangling link."
  },
  {
   "property": "C14",
   "status": "proved",
   "theorems": [
    "Verif.c14_apply_params"
   ],
   "note": ""
  },
  {
   "property": "C15",
   "status": "proved",
   "theorems": [
    "Verif.c15_apply_params_compose",
    "Verif.c15_apply_params_empty",
    "Verif.c15_apply_params_idem",
    "Verif.c15_apply_params_links"
   ],
   "note": ""
  },
  {
   "property": "C16",
   "status": "proved",
   "theorems": [
    "Verif.c16_add_property"
   ],
   "note": ""
  },
  {
   "property": "C17",
   "status": "proved",
   "theorems": [
    "Verif.c17_merge",
    "Verif.c17_merge_symm_unit"
   ],
   "note": ""
  },
  {
   "property": "C18",
   "status": "partial",
   "theorems": [
    "Verif.c18_is_false",
    "Verif.c18_failed_merge_partial",
    "Verif.c18_exact"
   ],
   "note": "False of the code: properties inserted before the conflict stay (witness). Proved: the exact state after a failed merge."
  },
  {
   "property": "C19",
   "status": "proved",
   "theorems": [
    "Verif.c19_try_merge"
   ],
   "note": ""
  },
  {
   "property": "C43",
   "status": "proved",
   "theorems": [
    "Verif.c43_variant_words",
    "Verif.c43_any_variant"
   ],
   "note": ""
  },
  {
   "property": "C44",
   "status": "proved",
   "theorems": [
    "Verif.c44_field_words",
    "Verif.c44_any_field"
   ],
   "note": ""
  },
  {
   "property": "C45",
   "status": "partial",
   "theorems": [
    "Verif.c45_no_panic_is_false",
    "Verif.c45_variant_panics_iff",
    "Verif.c45_field_panics_iff",
    "Verif.c45_no_panic_partial"
   ],
   "note": "False of the code (witnesses `__`, `Ä`). Proved: the exact panic sets, and no panic on ASCII identifiers with a non-underscore character."
  },
  {
   "property": "C46",
   "status": "partial",
   "theorems": [
    "Verif.c46_injective_is_false",
    "Verif.c46_variant_injective_partial",
    "Verif.c46_field_injective_partial",
    "Verif.c46_field_exact",
    "Verif.c46_variant_exact"
   ],
   "note": "False in general (witnesses). Proved for identifiers in the usual style; c46_field_exact and c46_variant_exact say exactly which names clash under each rule."
  },
  {
   "property": "C47",
   "status": "proved",
   "theorems": [
    "Verif.c47_rule_names",
    "Verif.c47_distinct",
    "Verif.c47_unknown_ignored"
   ],
   "note": ""
  },
  {
   "property": "C01",
   "status": "proved",
   "theorems": [
    "Verif.c01_links_resolve",
    "Verif.c01_links_resolve_from_empty"
   ],
   "note": ""
  },
  {
   "property": "C02",
   "status": "proved",
   "theorems": [
    "Verif.c02_registered_is_kept",
    "Verif.c02_get_schema_keeps"
   ],
   "note": ""
  },
  {
   "property": "C03",
   "status": "proved",
   "theorems": [
    "Verif.c03_mention_idempotent"
   ],
   "note": ""
  },
  {
   "property": "C04",
   "status": "proved",
   "theorems": [
    "Verif.c04_mention_registers"
   ],
   "note": ""
  },
  {
   "property": "C05",
   "status": "proved",
   "theorems": [
    "Verif.c05_context_independent"
   ],
   "note": ""
  },
  {
   "property": "C08",
   "status": "proved",
   "theorems": [
    "Verif.c08_registered_mention_returns",
    "Verif.c08_settled_returns",
    "Verif.c08_struct_returns"
   ],
   "note": ""
  },
  {
   "property": "C13",
   "status": "proved",
   "theorems": [
    "Verif.c13_generated_verifies",
    "Verif.c13_document",
    "Verif.c13_mixed",
    "Verif.c13_candid_needed"
   ],
   "note": "c13_document: the components of described documents; c13_mixed: also where types are documented by hand, by impls that link only to names they know to be registered (needed: c13_candid_needed)."
  },
  {
   "property": "C28",
   "status": "proved",
   "theorems": [
    "Verif.c28_required_declared",
    "Verif.c28_registry",
    "Verif.c28_document",
    "Verif.c28_mixed",
    "Verif.c28_whole_needed"
   ],
   "note": "c28_document: components of documents and the schemas that operations and path items show. c28_mixed: the same in programs with hand written impls that do so themselves, which is needed (c28_whole_needed)."
  },
  {
   "property": "C34",
   "status": "proved",
   "theorems": [
    "Verif.c34_inline",
    "Verif.c34_by_reference_is_link"
   ],
   "note": ""
  },
  {
   "property": "C35",
   "status": "proved",
   "theorems": [
    "Verif.c35_wrappers_transparent"
   ],
   "note": ""
  },
  {
   "property": "C37",
   "status": "proved",
   "theorems": [
    "Verif.c37_sequences",
    "Verif.c37_maps",
    "Verif.c37_tuples",
    "Verif.c37_always_inlined"
   ],
   "note": ""
  },
  {
   "property": "C06",
   "status": "partial",
   "theorems": [
    "Verif.c06_is_false",
    "Verif.c06_is_false_same_identifier",
    "Verif.c06_registry_is_determined",
    "Verif.c06_order_independent_partial",
    "Verif.c06_any_order_partial",
    "Verif.c06_exact"
   ],
   "note": "False of the code (witnesses: Pet/Option<Pet>; two structs with one identifier). Proved for name-consistent programs: the final registry is exactly the schemas of the types mentioned by reference. c06_exact: exactly for those."
  },
  {
   "property": "C07",
   "status": "partial",
   "theorems": [
    "Verif.c07_is_false",
    "Verif.c07_recursive_never_returns",
    "Verif.c07_finite_returns_partial",
    "Verif.c07_returns_iff_partial"
   ],
   "note": "False of the code: recursive types do not return. Proved: returns exactly when the expansion is finite."
  },
  {
   "property": "C42",
   "status": "proved",
   "theorems": [
    "Verif.c42_struct_fields",
    "Verif.c42_enum",
    "Verif.c42_explicit_wins",
    "Verif.c42_explicit_wins_variant",
    "Verif.c42_raw_prefix"
   ],
   "note": ""
  },
  {
   "property": "C48",
   "status": "proved",
   "theorems": [
    "Verif.c48_duplicates_rejected",
    "Verif.c48_field",
    "Verif.c48_variant",
    "Verif.c48_container"
   ],
   "note": ""
  },
  {
   "property": "C49",
   "status": "proved",
   "theorems": [
    "Verif.c49_unknown_opg_rejected",
    "Verif.c49_unknown_serde_ignored"
   ],
   "note": ""
  },
  {
   "property": "C50",
   "status": "proved",
   "theorems": [
    "Verif.c50_order_irrelevant"
   ],
   "note": ""
  },
  {
   "property": "C51",
   "status": "proved",
   "theorems": [
    "Verif.c51_tagging",
    "Verif.c51_shape"
   ],
   "note": ""
  },
  {
   "property": "C52",
   "status": "partial",
   "theorems": [
    "Verif.c52_is_false",
    "Verif.c52_panics_iff",
    "Verif.c52_no_panic_partial"
   ],
   "note": "False of the code (five witnesses). Proved: the exact set of inputs on which the macro panics, and its absence elsewhere."
  },
  {
   "property": "C53",
   "status": "proved",
   "theorems": [
    "Verif.c53_errors",
    "Verif.c53_mistakes",
    "Verif.c53_no_code"
   ],
   "note": ""
  },
  {
   "property": "C27",
   "status": "proved",
   "theorems": [
    "Verif.c27_struct",
    "Verif.c27_source"
   ],
   "note": ""
  },
  {
   "property": "C29",
   "status": "proved",
   "theorems": [
    "Verif.c29_unit_enum"
   ],
   "note": ""
  },
  {
   "property": "C30",
   "status": "partial",
   "theorems": [
    "Verif.c30_is_false",
    "Verif.c30_repr_exact",
    "Verif.c30_repr_partial",
    "Verif.c30_exact"
   ],
   "note": "False for variants without an explicit discriminant (empty oneOf). Proved: the exact documented schema, and the property when every serialized variant has an explicit discriminant; c30_exact: exactly then."
  },
  {
   "property": "C31",
   "status": "proved",
   "theorems": [
    "Verif.c31_untagged",
    "Verif.c31_external",
    "Verif.c31_adjacent",
    "Verif.c31_internal"
   ],
   "note": ""
  },
  {
   "property": "C32",
   "status": "partial",
   "theorems": [
    "Verif.c32_is_false",
    "Verif.c32_internal_tag_partial",
    "Verif.c32_exact"
   ],
   "note": "False for inner schemas that are not objects and for a field named like the tag; proved otherwise. c32_exact: exactly when an alternative carries its tag."
  },
  {
   "property": "C33",
   "status": "partial",
   "theorems": [
    "Verif.c33_is_false",
    "Verif.c33_adjacent_partial",
    "Verif.c33_exact"
   ],
   "note": "False for enums with unit variants only; proved for enums with data. c33_exact: exactly for those; the others are documented as strings."
  },
  {
   "property": "C36",
   "status": "partial",
   "theorems": [
    "Verif.c36_is_false",
    "Verif.c36_option_partial",
    "Verif.c36_exact"
   ],
   "note": "False for oneOf schemas and for links; proved for inline single schemas. c36_exact: exactly when the inner schema is not a oneOf, allOf or anyOf."
  },
  {
   "property": "C38",
   "status": "proved",
   "theorems": [
    "Verif.c38_newtype",
    "Verif.c38_chain"
   ],
   "note": ""
  },
  {
   "property": "C39",
   "status": "partial",
   "theorems": [
    "Verif.c39_is_false",
    "Verif.c39_nullable_partial",
    "Verif.c39_other_shapes",
    "Verif.c39_shapes"
   ],
   "note": "False for newtype structs, unit enums and oneOf enums; proved for the other shapes. c39_other_shapes says what happens in all the other shapes, c39_shapes that there are no more."
  },
  {
   "property": "C65",
   "status": "proved",
   "theorems": [
    "Verif.c65_parsed"
   ],
   "note": ""
  },
  {
   "property": "C66",
   "status": "proved",
   "theorems": [
    "Verif.c66_explicit_newtype",
    "Verif.c66_tuple_struct"
   ],
   "note": ""
  },
  {
   "property": "C20",
   "status": "partial",
   "theorems": [
    "Verif.c20_is_false",
    "Verif.c20_distinct_keys_partial",
    "Verif.c20_exact"
   ],
   "note": "False when a path is described twice (paths is a vector); proved for documents whose path lists have no two equally written paths. c20_exact: exactly for those."
  },
  {
   "property": "C21",
   "status": "proved",
   "theorems": [
    "Verif.c21_schema_injective",
    "Verif.c21_reference_injective"
   ],
   "note": "Holds even if the order of object entries is forgotten."
  },
  {
   "property": "C22",
   "status": "partial",
   "theorems": [
    "Verif.c22_is_false",
    "Verif.c22_document_injective_partial",
    "Verif.c22_exact"
   ],
   "note": "False because path rendering is not injective; proved for paths whose segments contain no '/' and whose literals are not of the form {..}. c22_exact says exactly which documents are written the same way."
  },
  {
   "property": "C23",
   "status": "partial",
   "theorems": [
    "Verif.c23_render",
    "Verif.c23_is_false",
    "Verif.c23_render_injective_partial",
    "Verif.c23_read_exact"
   ],
   "note": "The rendering equation is proved in full; injectivity is false in general and proved for plain segments. c23_read_exact: the paths that can be read back are exactly the plain ones."
  },
  {
   "property": "C25",
   "status": "proved",
   "theorems": [
    "Verif.c25_maps_sorted",
    "Verif.c25_insertion_order",
    "Verif.c25_document_ascending",
    "Verif.c25_operation_ascending",
    "Verif.c25_item_ascending",
    "Verif.c25_object_ascending",
    "Verif.c25_declaration_order"
   ],
   "note": ""
  },
  {
   "property": "C26",
   "status": "proved",
   "theorems": [
    "Verif.c26_document",
    "Verif.c26_tag_server",
    "Verif.c26_operation",
    "Verif.c26_response",
    "Verif.c26_parameter",
    "Verif.c26_request_body",
    "Verif.c26_path_item",
    "Verif.c26_object_schema",
    "Verif.c26_no_false_or_null"
   ],
   "note": ""
  },
  {
   "property": "C24",
   "status": "proved",
   "theorems": [
    "Verif.c24_refs_resolve",
    "Verif.c24_needs_registered_expressions"
   ],
   "note": "The links of schemas supplied by the user as Rust expressions have to be registered; a witness shows this is needed."
  },
  {
   "property": "C56",
   "status": "partial",
   "theorems": [
    "Verif.c56_is_false",
    "Verif.c56_is_false_literal",
    "Verif.c56_template_parameters_partial",
    "Verif.c56_exact",
    "Verif.c56_mixed_partial"
   ],
   "note": "False when a parameter declared for the path has the name of a template parameter, and for literal segments written like parameters (witnesses); proved otherwise. c56_exact: exactly when the path declares no parameter of that name. c56_mixed_partial: also with hand written impls."
  },
  {
   "property": "C57",
   "status": "proved",
   "theorems": [
    "Verif.c57_order",
    "Verif.c57_operation_order",
    "Verif.c57_mixed"
   ],
   "note": ""
  },
  {
   "property": "C58",
   "status": "proved",
   "theorems": [
    "Verif.c58_tags",
    "Verif.c58_security_schemes",
    "Verif.c58_operations",
    "Verif.c58_operation",
    "Verif.c58_path_item",
    "Verif.c58_info",
    "Verif.c58_mixed_tags",
    "Verif.c58_mixed_schemes",
    "Verif.c58_mixed_operations",
    "Verif.c58_spares_needed"
   ],
   "note": "c58_mixed_*: the same in programs with hand written impls; a scheme that such an impl mentions counts only if none is declared under its name (c58_spares_needed)."
  },
  {
   "property": "C59",
   "status": "proved",
   "theorems": [
    "Verif.c59_parameters",
    "Verif.c59_body",
    "Verif.c59_response",
    "Verif.c59_mixed_parameters",
    "Verif.c59_mixed_bodies"
   ],
   "note": "The mixed theorems: also with hand written impls."
  },
  {
   "property": "C60",
   "status": "partial",
   "theorems": [
    "Verif.c60_is_false",
    "Verif.c60_schemes_registered_partial",
    "Verif.c60_exact",
    "Verif.c60_mixed_exact"
   ],
   "note": "False of names given as literals (witness); proved if those are registered. c60_exact: exactly if those are; c60_mixed_exact: also in programs with hand written impls."
  },
  {
   "property": "C61",
   "status": "partial",
   "theorems": [
    "Verif.c61_is_false",
    "Verif.c61_is_false_not_last",
    "Verif.c61_callbacks_partial",
    "Verif.c61_literal",
    "Verif.c61_exact",
    "Verif.c61_mixed_exact"
   ],
   "note": "False of callbacks whose name is a string literal (witnesses); proved for names written as identifiers. c61_literal: those with a literal name are written without paths. c61_mixed_exact: also with hand written impls."
  },
  {
   "property": "C62",
   "status": "partial",
   "theorems": [
    "Verif.c62_is_false",
    "Verif.c62_is_false_not_ascii",
    "Verif.c62_name",
    "Verif.c62_bare_segment_partial",
    "Verif.c62_exact"
   ],
   "note": "False of types with generic arguments and of names that start outside ASCII (witnesses); proved otherwise. c62_exact gives the name for every text of a type."
  },
  {
   "property": "C63",
   "status": "proved",
   "theorems": [
    "Verif.c63_describe_type",
    "Verif.c63_describe_type_unique",
    "Verif.c63_object"
   ],
   "note": ""
  },
  {
   "property": "C64",
   "status": "proved",
   "theorems": [
    "Verif.c64_order_independent"
   ],
   "note": ""
  },
  {
   "property": "C54",
   "status": "proved",
   "theorems": [
    "Verif.c54_bounds"
   ],
   "note": ""
  },
  {
   "property": "C55",
   "status": "partial",
   "theorems": [
    "Verif.c55_is_false",
    "Verif.c55_mentioned_are_bounded_partial",
    "Verif.c55_exact"
   ],
   "note": "False for skipped fields of tuple structs and variants (witness); proved otherwise. c55_exact: a type parameter is bounded exactly if it occurs in a serialized field."
  },
  {
   "property": "C40",
   "status": "partial",
   "theorems": [
    "Verif.c40_conforms_partial",
    "Verif.c40_registered_partial",
    "Verif.c40_option_is_false",
    "Verif.c40_tuple1_is_false",
    "Verif.c40_nan_is_false",
    "Verif.c40_unit_variant_is_false",
    "Verif.c40_tagged_units_is_false",
    "Verif.c40_adjacent_struct_is_false",
    "Verif.c40_flatten_is_false",
    "Verif.c40_transparent_is_false",
    "Verif.c40_newtype_explicit_is_false",
    "Verif.c40_repr_is_false",
    "Verif.c40_option_oneOf_is_false",
    "Verif.c40_units_exact",
    "Verif.c40_unit_variants_rejected",
    "Verif.c40_adjacent_structs_rejected",
    "Verif.c40_struct_needs"
   ],
   "note": "False of the code in eleven ways (one witness each). Proved for every program whose types avoid them, links resolved in the final registry, oneOf read as at least one (the other reading: C93). For enums without data the criterion is exact; unit variants next to others, adjacently tagged struct variants and required flattened fields fail always."
  },
  {
   "property": "C41",
   "status": "partial",
   "theorems": [
    "Verif.c41_is_false",
    "Verif.c41_disjoint_partial",
    "Verif.c41_overlap_rejected",
    "Verif.c41_exact",
    "Verif.c41_scalars"
   ],
   "note": "False of components that share a JSON value (witness). Proved: a tuple with pairwise disjoint components is accepted, one with a shared item is rejected, and exactly when all values of a tuple are accepted, for any components with values and in terms of their JSON types for scalars."
  },
  {
   "property": "C67",
   "status": "partial",
   "theorems": [
    "Verif.c67_serialized",
    "Verif.c67_generated_partial",
    "Verif.c67_necessary",
    "Verif.c67_is_false",
    "Verif.c67_mixed_partial",
    "Verif.c67_mixed_is_false"
   ],
   "note": "False of degenerate types: enums without serialized variants, empty tuple structs, two fields of one name, tag equal to content, repr enums without discriminants (witnesses). Proved for all other types; the condition on types is shown necessary. c67_mixed_partial: programs with hand written impls that make legal schemas; false if such a schema requires what is not among its properties (witness)."
  },
  {
   "property": "C68",
   "status": "partial",
   "theorems": [
    "Verif.c68_serialization",
    "Verif.c68_described_partial",
    "Verif.c68_exact",
    "Verif.c68_is_false",
    "Verif.c68_body_is_false",
    "Verif.c68_mixed_partial",
    "Verif.c68_mixed_exact"
   ],
   "note": "Serialization: exact characterisation of the documents written legally. describe_api!: false of descriptions without paths or responses, with impossible status codes, API keys in the path or odd scheme names (witnesses); proved for all others. c68_exact: which descriptions have a legal document, exactly. c68_mixed_partial, c68_mixed_exact: the same in programs with hand written impls."
  },
  {
   "property": "C69",
   "status": "partial",
   "theorems": [
    "Verif.c69_names_partial",
    "Verif.c69_is_false",
    "Verif.c69_exact",
    "Verif.c69_document_partial",
    "Verif.c69_document_exact"
   ],
   "note": "False of raw and non-ASCII identifiers (witnesses). Proved for programs whose types have plain ASCII identifiers. c69_exact: the names are legal exactly if the identifiers of the types used by reference are. The document theorems say the same of what describe_api! produces; programs with hand written impls are in c67_mixed_partial."
  },
  {
   "property": "C70",
   "status": "partial",
   "theorems": [
    "Verif.c70_exact",
    "Verif.c70_accepts",
    "Verif.c70_text_partial",
    "Verif.c70_times_is_false",
    "Verif.c70_far_dates_is_false"
   ],
   "note": "Exact for fixed-size integers, chars, strings, booleans; every value accepted for all primitives; exact for UUIDs and dates of four-digit years. False of date-times, documented with format date, and of chrono dates outside years 0-9999."
  },
  {
   "property": "C71",
   "status": "partial",
   "theorems": [
    "Verif.c71_examples_partial",
    "Verif.c71_exact",
    "Verif.c71_numbers",
    "Verif.c71_is_false",
    "Verif.c71_repr_is_false"
   ],
   "note": "False of examples for integers and numbers, which are written as strings (c71_numbers: of every such field of a struct; witnesses: an attribute, and a repr enum without attributes). Proved for programs with examples on strings only. c71_exact: the schemas whose example fits."
  },
  {
   "property": "C72",
   "status": "partial",
   "theorems": [
    "Verif.c72_field_partial",
    "Verif.c72_is_false",
    "Verif.c72_other_fields",
    "Verif.c72_exact"
   ],
   "note": "False of fields whose type is referenced: a bare $ref is written (witness). Proved for every inlined field. c72_other_fields: the other fields are written as a bare $ref or as {}."
  },
  {
   "property": "C73",
   "status": "proved",
   "theorems": [
    "Verif.c73_reads",
    "Verif.c73_unambiguous"
   ],
   "note": "The rules of the macro, transcribed on token trees, against a declarative grammar."
  },
  {
   "property": "C74",
   "status": "partial",
   "theorems": [
    "Verif.c74_omit",
    "Verif.c74_same_partial",
    "Verif.c74_add_is_false"
   ],
   "note": "Leaving out is proved. Adding is false: no comma is accepted after the last path of a callback (witness). Two accepted inputs that differ in trailing commas give the same document."
  },
  {
   "property": "C75",
   "status": "proved",
   "theorems": [
    "Verif.c75_reads",
    "Verif.c75_unambiguous"
   ],
   "note": "The rules of the macro, transcribed on token trees, against a declarative grammar."
  },
  {
   "property": "C76",
   "status": "partial",
   "theorems": [
    "Verif.c76_docs_neutral_partial",
    "Verif.c76_link_is_schema",
    "Verif.c76_is_false",
    "Verif.c76_is_false_names"
   ],
   "note": "Missing: fields marked nullable that are inlined in one program and referred to in the other (a link drops the mark, inlining keeps it: witness), and names used for several types (witness)."
  },
  {
   "property": "C77",
   "status": "partial",
   "theorems": [
    "Verif.c77_accepts",
    "Verif.c77_scoped_partial",
    "Verif.c77_is_false",
    "Verif.c77_builtin",
    "Verif.c77_limits"
   ],
   "note": "Missing: the forms kind: Type and kind(\"format\"): Type, whose expansion refers to an undeclared type T (witness)."
  },
  {
   "property": "C78",
   "status": "proved",
   "theorems": [
    "Verif.c78_const_names"
   ],
   "note": ""
  },
  {
   "property": "C79",
   "status": "partial",
   "theorems": [
    "Verif.c79_precise_partial",
    "Verif.c79_tuple_is_false",
    "Verif.c79_unit_is_false",
    "Verif.c79_external_is_false",
    "Verif.c79_adjacent_is_false",
    "Verif.c79_tuple_always",
    "Verif.c79_one_tuple_always",
    "Verif.c79_texts_always",
    "Verif.c79_null_always",
    "Verif.c79_external_always",
    "Verif.c79_adjacent_always",
    "Verif.c79_units_exact"
   ],
   "note": "Missing: tuples, (), char, enums without tag or with tag and content, nullable structs and links; metadata nullable and variants at the mention; ranges of integers. The property is false of these, not only of the witnesses but of all tuples, one-tuples, (), char, nullable structs, externally tagged enums with data and adjacently tagged ones (c79_*_always); exact criterion for enums without data (c79_units_exact)."
  },
  {
   "property": "C80",
   "status": "proved",
   "theorems": [
    "Verif.c80_read",
    "Verif.c80_read_paths",
    "Verif.c80_read_schema",
    "Verif.c80_read_scheme",
    "Verif.c80_exact"
   ],
   "note": "c80_read_paths also recovers the segments of paths, for segments without slash and literals not of the form {..}; else their text is recovered. c80_exact: exactly for those."
  },
  {
   "property": "C81",
   "status": "partial",
   "theorems": [
    "Verif.c81_placed",
    "Verif.c81_accepts_partial",
    "Verif.c81_only_partial",
    "Verif.c81_is_false_repeated"
   ],
   "note": "The places hold for all descriptions whose document has no repeated key (c81_placed). Acceptance holds for faithful types (C40) and the converse for precise types (C79), names being used for one type each; outside these the property is false (witnesses under C20, C40, C79, and c81_is_false_repeated). Payloads of literal-named callbacks are not written (C61)."
  },
  {
   "property": "C82",
   "status": "proved",
   "theorems": [
    "Verif.c82_written_out",
    "Verif.c82_instance",
    "Verif.c82_arguments",
    "Verif.c82_same_schema"
   ],
   "note": ""
  },
  {
   "property": "C83",
   "status": "partial",
   "theorems": [
    "Verif.c83_is_false",
    "Verif.c83_first_wins",
    "Verif.c83_exact",
    "Verif.c83_inline_partial",
    "Verif.c83_one_instance_partial"
   ],
   "note": "False: instances share one component name, the first mentioned wins (c83_is_false, c83_first_wins). Proved for inline types and when one instance is linked; c83_exact: the links to the second are right exactly if both have the same schema."
  },
  {
   "property": "C84",
   "status": "partial",
   "theorems": [
    "Verif.c84_is_false",
    "Verif.c84_is_false_key",
    "Verif.c84_bounds_suffice_partial"
   ],
   "note": "False for associated types below other types, for keys of maps (K: Serialize is needed, K: OpgModel is written) and for skipped positional fields. Proved otherwise."
  },
  {
   "property": "C85",
   "status": "partial",
   "theorems": [
    "Verif.c85_is_false",
    "Verif.c85_is_false_key",
    "Verif.c85_bounded_are_asked_partial",
    "Verif.c85_exact"
   ],
   "note": "False for fields with an explicit type and for keys of maps. Proved: without explicit types each bounded parameter occurs in a type the generated code asks for; c85_exact says which bounds are superfluous in that sense."
  },
  {
   "property": "C86",
   "status": "partial",
   "theorems": [
    "Verif.c86_accepted_is_read_partial",
    "Verif.c86_range_is_false",
    "Verif.c86_length_is_false",
    "Verif.c86_optional_is_false",
    "Verif.c86_skipped_is_false",
    "Verif.c86_unknown_is_false",
    "Verif.c86_external_is_false",
    "Verif.c86_missing_always",
    "Verif.c86_unknown_always",
    "Verif.c86_length_always",
    "Verif.c86_scalars_exact"
   ],
   "note": "False: bounds of integers and lengths of arrays are not documented; skip_serializing_if without default is documented as optional; fields with skip_serializing are not documented although reading needs them; deny_unknown_fields and the keys of externally tagged enums are not documented. Proved for the types without these (Readable), whatever serde-only attributes the program uses. The _always theorems show that every struct with such a field or attribute, and every sized array and tuple, is a counterexample."
  },
  {
   "property": "C87",
   "status": "partial",
   "theorems": [
    "Verif.c87_read_is_accepted_partial",
    "Verif.c87_option_is_false",
    "Verif.c87_default_is_false",
    "Verif.c87_array_is_false",
    "Verif.c87_unit_variant_is_false",
    "Verif.c87_tuple_is_false",
    "Verif.c87_missing_always",
    "Verif.c87_arrays_always",
    "Verif.c87_scalars_exact"
   ],
   "note": "False: fields of type Option and fields with serde(default) may be missing but are documented as required; serde_json also reads structs from arrays and unit variants from objects; one-tuples. Proved for the types without these (Documented) and the usual forms. The _always theorems show that every struct with such a field, and every array, is a counterexample."
  },
  {
   "property": "C88",
   "status": "partial",
   "theorems": [
    "Verif.c88_requests_partial",
    "Verif.c88_complete_partial",
    "Verif.c88_is_false_range"
   ],
   "note": "False as C86 and C87 are (bounds of integers are not documented). Proved for the types that are readable (C86) or documented in full (C87), of documents without repeated keys and with a name per type; together an equivalence."
  },
  {
   "property": "C89",
   "status": "partial",
   "theorems": [
    "Verif.c89_distinct_partial",
    "Verif.c89_names",
    "Verif.c89_word_is_false",
    "Verif.c89_place_is_false"
   ],
   "note": "False of unknown words, which all have the message `unknown attribute`, and of the place: every unknown attribute is called one of a variant (witnesses). Proved: otherwise the message determines the mistake, and names or shows what it is about. Texts of syn and the tokens pointed at are not modelled."
  },
  {
   "property": "C90",
   "status": "proved",
   "theorems": [
    "Verif.c90_same_code",
    "Verif.c90_same_document",
    "Verif.c90_renamed",
    "Verif.c90_accepted",
    "Verif.c90_without",
    "Verif.c90_shorthand",
    "Verif.c90_mixed"
   ],
   "note": "For types without type parameters, also next to hand written impls (c90_mixed); the identifier of the type itself is its name in the document and is kept."
  },
  {
   "property": "C91",
   "status": "proved",
   "theorems": [
    "Verif.c91_local",
    "Verif.c91_local_types",
    "Verif.c91_impls",
    "Verif.c91_mixed"
   ],
   "note": "Reached types are those of the declared APIs and, recursively, of fields that are not skipped; in programs with hand written impls (c91_impls, c91_mixed) those of the calls that impls may make."
  },
  {
   "property": "C92",
   "status": "partial",
   "theorems": [
    "Verif.c92_same_item",
    "Verif.c92_schemas_kept_at_end",
    "Verif.c92_together",
    "Verif.c92_schemas_kept_partial",
    "Verif.c92_join_partial",
    "Verif.c92_is_false",
    "Verif.c92_is_false_joined",
    "Verif.c92_mixed_kept_at_end"
   ],
   "note": "False if names clash: a further path in front can change a schema, and two descriptions can lose their document when joined (witnesses). Proved without conditions: path items, further paths at the end (also where types are documented by hand: c92_mixed_kept_at_end), contents of a joined document. Proved for programs with one type per name: schemas kept wherever paths are added, existence of the joined document and its schemas."
  },
  {
   "property": "C93",
   "status": "partial",
   "theorems": [
    "Verif.c93_readings",
    "Verif.c93_conforms_partial",
    "Verif.c93_internal",
    "Verif.c93_untagged",
    "Verif.c93_external",
    "Verif.c93_scalars_external",
    "Verif.c93_scalars_untagged",
    "Verif.c93_repr_rejects",
    "Verif.c93_is_false"
   ],
   "note": "False of the code: {\"Name\": \"x\"} of enum Key { Name(String), Title(String) } matches both alternatives (witness), and number enums with two variants accept nothing. Proved: how the two readings of oneOf relate; acceptance for programs whose alternatives tell values apart; that internally tagged enums with different variant names always do, and enums of structs do if each variant requires a key the others lack; the exact criterion for enums of scalars."
  },
  {
   "property": "C94",
   "status": "partial",
   "theorems": [
    "Verif.c94_exact",
    "Verif.c94_is_false",
    "Verif.c94_values",
    "Verif.c94_path_parameters",
    "Verif.c94_typed",
    "Verif.c94_ambiguous",
    "Verif.c94_mixed_exact",
    "Verif.c94_mixed_parameters"
   ],
   "note": "False of literals with braces: \"{x}\" stands for one URL but is published as a template (witness). c94_exact: the URLs agree if and only if literals contain no { and names no }. Proved for all descriptions: values are determined, path parameters occur in the path, and when paths compete. The schema of a value is that of its type if the name is used once (else C56, C58). The mixed theorems: also with hand written impls."
  },
  {
   "property": "C95",
   "status": "partial",
   "theorems": [
    "Verif.c95_old_values",
    "Verif.c95_accepted_partial",
    "Verif.c95_old_clients_partial",
    "Verif.c95_required_rejects",
    "Verif.c95_is_false",
    "Verif.c95_mixed_values",
    "Verif.c95_mixed_partial"
   ],
   "note": "c95_old_values holds of all programs, and c95_mixed_values of those that write some types by hand. That documents accept the old values is proved for the types that are faithful to their values (C40), also in published documents together with what the service reads (C81, C88), and in those of programs with hand written impls (c95_mixed_partial, with the hypotheses of C119 and C120). False of other changes: a further required field makes the document reject every value of the old version (c95_required_rejects, witness c95_is_false)."
  },
  {
   "property": "C96",
   "status": "partial",
   "theorems": [
    "Verif.c96_narrower_partial",
    "Verif.c96_same_partial",
    "Verif.c96_published_partial",
    "Verif.c96_is_false",
    "Verif.c96_is_false_exclusive"
   ],
   "note": "Proved in the inclusive reading of oneOf, where every name is used for one type, internal tags are not names of fields, and enums of unit variants keep being such; also between published documents. False otherwise: an enum of unit variants that gets a variant with data no longer accepts its strings (c96_is_false), and in the exclusive reading a further variant of an untagged enum may match too (c96_is_false_exclusive)."
  },
  {
   "property": "C97",
   "status": "partial",
   "theorems": [
    "Verif.c97_account",
    "Verif.c97_account_type",
    "Verif.c97_components_partial",
    "Verif.c97_total_partial",
    "Verif.c97_document_account",
    "Verif.c97_document_partial",
    "Verif.c97_is_false",
    "Verif.c97_is_false_tagged"
   ],
   "note": "c97_account holds of all programs: forty nodes for each node of the declaration besides the schemas copied into it; c97_document_account is the account for whole described documents. The bound on documents is proved for programs in whose schemas no other derived type is copied. It is false with copies: types that are #[opg(inline)] (c97_is_false) and newtype variants of internally tagged enums (c97_is_false_tagged) make documents exponentially larger than programs."
  },
  {
   "property": "C98",
   "status": "partial",
   "theorems": [
    "Verif.c98_calls",
    "Verif.c98_once_partial",
    "Verif.c98_unique_partial",
    "Verif.c98_linear_partial",
    "Verif.c98_is_false",
    "Verif.c98_is_false_tagged",
    "Verif.c98_is_false_names"
   ],
   "note": "The calls a run makes are specified by the relation Trace, which every run meets and which determines them (c98_calls). At most one call for each derived type, and linearly many altogether, is proved for programs in whose schemas no other derived type is copied. It is false with copies: #[opg(inline)] types (c98_is_false) and newtype variants of internally tagged enums (c98_is_false_tagged) are generated anew for each copy, exponentially often in nested types. It is also false of types that need themselves, which return only where another type has taken a name of theirs (c98_is_false_names); where names are unique a returned run is enough (c98_unique_partial)."
  },
  {
   "property": "C99",
   "status": "partial",
   "theorems": [
    "Verif.c99_used_partial",
    "Verif.c99_document_partial",
    "Verif.c99_is_false_fields",
    "Verif.c99_is_false_names",
    "Verif.c99_is_false_replaced"
   ],
   "note": "Proved for registries (c99_used_partial) and for written documents (c99_document_partial) if the types reached have different identifiers, the written fields of a struct have different keys and each type of the description is written somewhere. Without each of these it is false: c99_is_false_names, c99_is_false_fields, c99_is_false_replaced."
  },
  {
   "property": "C100",
   "status": "proved",
   "theorems": [
    "Verif.c100_macro",
    "Verif.c100_programs",
    "Verif.c100_types",
    "Verif.c100_calls",
    "Verif.c100_documents",
    "Verif.c100_mixed",
    "Verif.c100_option",
    "Verif.c100_heeded_needed"
   ],
   "note": "c100_option: the claim is not about Option, which is documented as nullable. c100_mixed: also where types are documented by hand, by impls that pointers heed; others are documented differently behind pointers (c100_heeded_needed, c103_pointer_is_false)."
  },
  {
   "property": "C101",
   "status": "partial",
   "theorems": [
    "Verif.c101_macro_partial",
    "Verif.c101_documents_partial",
    "Verif.c101_mixed_partial",
    "Verif.c101_is_false_tuple",
    "Verif.c101_is_false_variant",
    "Verif.c101_is_false_adjacent",
    "Verif.c101_positional"
   ],
   "note": "Proved for skipped named fields of structs, skipped variants unless all variants with fields are skipped, and skipped named fields of variants unless the enum is adjacently tagged. False otherwise (witnesses c101_is_false_*); c101_positional: on the other fields skip has no effect on the generated code at all."
  },
  {
   "property": "C102",
   "status": "partial",
   "theorems": [
    "Verif.c102_macro_partial",
    "Verif.c102_programs_partial",
    "Verif.c102_schema_partial",
    "Verif.c102_calls_partial",
    "Verif.c102_documents_partial",
    "Verif.c102_values",
    "Verif.c102_is_false_fields",
    "Verif.c102_is_false_types"
   ],
   "note": "Proved if no two written fields of a struct or struct variant go by one name, the tag of an adjacently tagged enum differs from the content key, and each name is used for one type. False otherwise: the last of two fields of one name and the first of two types of one name are documented (witnesses c102_is_false_*)."
  },
  {
   "property": "C103",
   "status": "proved",
   "theorems": [
    "Verif.c103_kept",
    "Verif.c103_deterministic",
    "Verif.c103_mention_registers",
    "Verif.c103_mention_exact",
    "Verif.c103_methods",
    "Verif.c103_links",
    "Verif.c103_mixed",
    "Verif.c103_derived",
    "Verif.c103_candid_needed",
    "Verif.c103_pointer",
    "Verif.c103_pointer_is_false"
   ],
   "note": "Code is a free tree of calls of the methods of Components and OpgModel; direct changes of the public fields of Components are not modelled. c103_candid_needed: an impl that makes up a name can leave it dangling. c103_pointer_is_false: pointers do not heed an overridden select_reference."
  },
  {
   "property": "C104",
   "status": "proved",
   "theorems": [
    "Verif.c104_derived",
    "Verif.c104_deterministic",
    "Verif.c104_schemas",
    "Verif.c104_refs",
    "Verif.c104_security",
    "Verif.c104_only_schemas",
    "Verif.c104_by_hand",
    "Verif.c104_candid_needed"
   ],
   "note": "Schemas given as Rust expressions and schemes named by literals have to be registered (hypotheses, as in C24 and C60). c104_candid_needed: an impl that makes up a name puts a dangling reference into the document."
  },
  {
   "property": "C105",
   "status": "proved",
   "theorems": [
    "Verif.c105_asks_exactly",
    "Verif.c105_nothing"
   ],
   "note": "Also gives c85_exact."
  },
  {
   "property": "C106",
   "status": "proved",
   "theorems": [
    "Verif.c106_calls",
    "Verif.c106_documents",
    "Verif.c106_values",
    "Verif.c106_names",
    "Verif.c106_macro"
   ],
   "note": "No hypothesis on names or finiteness."
  },
  {
   "property": "C107",
   "status": "proved",
   "theorems": [
    "Verif.c107_calls",
    "Verif.c107_documents",
    "Verif.c107_values",
    "Verif.c107_macro",
    "Verif.c107_one"
   ],
   "note": "Up to descriptions, formats and examples (C106). References written out as Rust expressions in an API must be stable under the renaming. An example shows that different names are needed."
  },
  {
   "property": "C108",
   "status": "partial",
   "theorems": [
    "Verif.c108_newtypes_partial",
    "Verif.c108_published_partial",
    "Verif.c108_is_false",
    "Verif.c108_is_false_names"
   ],
   "note": "False in general: a field marked `nullable` loses the mark when its type gets a newtype, since a link has no place for it (c108_is_false), and a newtype used with and without Option has one component for both (c108_is_false_names). Proved when nullable fields are linked in both programs or in neither, and each name is used by reference for one type."
  },
  {
   "property": "C109",
   "status": "proved",
   "theorems": [
    "Verif.c109_document",
    "Verif.c109_whole",
    "Verif.c109_sections",
    "Verif.c109_mixed",
    "Verif.c109_operation",
    "Verif.c109_item",
    "Verif.c109_overridden"
   ],
   "note": "The schemas of components need consistent names (C06, C64); everything else does not."
  },
  {
   "property": "C110",
   "status": "proved",
   "theorems": [
    "Verif.c110_exact",
    "Verif.c110_types",
    "Verif.c110_any_order",
    "Verif.c110_mixed"
   ],
   "note": "What does not compile and what panics or does not end both count as no document."
  },
  {
   "property": "C111",
   "status": "partial",
   "theorems": [
    "Verif.c111_effective_partial",
    "Verif.c111_operation_exact",
    "Verif.c111_path_exact",
    "Verif.c111_is_false"
   ],
   "note": "False of the code: parameters are kept by name alone, so a query parameter replaces a header of the same name (c111_is_false). Proved if neither list uses a name for two places and no declared parameter has the name of a segment of its path; these conditions are shown to be exact for each list."
  },
  {
   "property": "C112",
   "status": "partial",
   "theorems": [
    "Verif.c112_meaning",
    "Verif.c112_access_partial",
    "Verif.c112_operation_partial",
    "Verif.c112_exact",
    "Verif.c112_open",
    "Verif.c112_is_false"
   ],
   "note": "False of the code if a name is used for two schemes: a scheme declared under the name of a variable replaces it (c112_is_false). Proved if every name is used for one scheme, where for one operation only the names in its own alternatives matter (c112_operation_partial), and exactly for operations with one alternative of one scheme (c112_exact); c112_meaning says for all descriptions what documents ask for, and c112_open that exactly the operations without alternatives are open."
  },
  {
   "property": "C113",
   "status": "partial",
   "theorems": [
    "Verif.c113_requests_partial",
    "Verif.c113_read_partial",
    "Verif.c113_operations_partial",
    "Verif.c113_is_false"
   ],
   "note": "False of the code if a header and a query parameter share a name (c113_is_false; also C94, C111, C112). Proved for descriptions with one type and place for each parameter name, no braces in literal segments, and one scheme for each security name."
  },
  {
   "property": "C114",
   "status": "partial",
   "theorems": [
    "Verif.c114_sent_partial",
    "Verif.c114_received_partial",
    "Verif.c114_written_partial",
    "Verif.c114_read_partial",
    "Verif.c114_is_false"
   ],
   "note": "False of types whose schemas are wrong about them: one-tuples are written as arrays and documented as their component (c114_is_false; more in C40 and C86). Statuses and presence of bodies hold for all descriptions; bodies follow for types that are faithful (C40) and readable (C86)."
  },
  {
   "property": "C115",
   "status": "partial",
   "theorems": [
    "Verif.c115_requests_partial",
    "Verif.c115_published_partial",
    "Verif.c115_clients_partial",
    "Verif.c115_answers",
    "Verif.c115_is_false"
   ],
   "note": "False of the code if names are used twice: a scheme declared later under the name of a variable in use replaces it, and the document no longer takes the password (c115_is_false). Proved for descriptions with one type and place for each parameter name, no braces in literal segments and one scheme for each security name; types change as in C96, or as in C95 for clients that write the earlier types."
  },
  {
   "property": "C116",
   "status": "partial",
   "theorems": [
    "Verif.c116_operations",
    "Verif.c116_ids",
    "Verif.c116_templates_partial",
    "Verif.c116_is_false"
   ],
   "note": "Places and ids are proved for all descriptions; callbacks with a literal name have no paths in documents (C61), and count as such. For path templates the property is false of the code if literal segments contain braces (c116_is_false); proved without them."
  },
  {
   "property": "C117",
   "status": "proved",
   "theorems": [
    "Verif.c117_structure",
    "Verif.c117_items",
    "Verif.c117_operations",
    "Verif.c117_places",
    "Verif.c117_ids",
    "Verif.c117_order"
   ],
   "note": ""
  },
  {
   "property": "C118",
   "status": "partial",
   "theorems": [
    "Verif.c118_sorted",
    "Verif.c118_placed",
    "Verif.c118_schemas",
    "Verif.c118_meaning",
    "Verif.c118_access_partial",
    "Verif.c118_requests_partial",
    "Verif.c118_operations_partial",
    "Verif.c118_sent_partial",
    "Verif.c118_received_partial",
    "Verif.c118_is_false"
   ],
   "note": "False as stated where an impl mentions a security scheme under a name that an operation uses for another (c118_is_false); proved for impls that do not, with the conditions of C112-C114."
  },
  {
   "property": "C119",
   "status": "partial",
   "theorems": [
    "Verif.c119_registered",
    "Verif.c119_accepts_partial",
    "Verif.c119_exclusive_partial",
    "Verif.c119_internal",
    "Verif.c119_structs",
    "Verif.c119_is_false"
   ],
   "note": "False of impls that register schemas under names of other types (c119_is_false); proved for unique names, faithful types (C40) and impls that override neither get_schema_with_params nor select_reference (except to be always inlined)."
  },
  {
   "property": "C120",
   "status": "partial",
   "theorems": [
    "Verif.c120_read_partial",
    "Verif.c120_complete_partial",
    "Verif.c120_requests_partial",
    "Verif.c120_sent_partial",
    "Verif.c120_received_partial",
    "Verif.c120_is_false"
   ],
   "note": "False of impls that register schemas under names of other types (c120_is_false); proved for unique names, readable and documented types (C86, C87), and impls that override neither get_schema_with_params nor select_reference (except to be always inlined)."
  },
  {
   "property": "C121",
   "status": "partial",
   "theorems": [
    "Verif.c121_requests_partial",
    "Verif.c121_readers_partial",
    "Verif.c121_answers_partial",
    "Verif.c121_wider",
    "Verif.c121_narrower",
    "Verif.c121_is_false"
   ],
   "note": "False if names are used twice (c121_is_false, as C115); proved for names that stand for one scheme, clear paths, and the types of C120. c121_wider and c121_narrower are unrestricted."
  },
  {
   "property": "C122",
   "status": "partial",
   "theorems": [
    "Verif.c122_only_partial",
    "Verif.c122_responses_partial",
    "Verif.c122_is_false"
   ],
   "note": "False of impls that register schemas under names of other types (c122_is_false); proved for unique names, precise types (C79), and impls that override neither get_schema_with_params nor select_reference (except to be always inlined)."
  }
 ]
}