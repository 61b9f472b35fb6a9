import Verif.Model.Ser
/-!
# Expected documents of the project's test suite

Generated from test_suite/tests/*.rs and README.md by tools/suite.py.
-/

namespace Verif.Suite

/-- models.rs 21, `newtype`. -/
def expectedNewtype : Value :=
  .map [(.str "description", .str "New type description"), (.str "type", .str "string"), (.str "format", .str "uuid"), (.str "example", .str "000-000")]

/-- models.rs 31, `newtype`. -/
def expectedNewtype2 : Value :=
  .map [(.str "description", .str "Override description"), (.str "type", .str "string"), (.str "format", .str "uuid"), (.str "example", .str "000-000")]

/-- models.rs 53, `simple_struct`. -/
def expectedSimpleStruct : Value :=
  .map [(.str "type", .str "object"), (.str "properties", .map [(.str "asd", .map [(.str "type", .str "integer"), (.str "format", .str "int32")]), (.str
    "helloCamelCase", .map [(.str "$ref", .str "#/components/schemas/NewType")])]), (.str "required", .seq [.str "asd"])]

/-- models.rs 81, `string_enum`. -/
def expectedStringEnum : Value :=
  .map [(.str "description", .str "New type description"), (.str "type", .str "string"), (.str "enum", .seq [.str "first", .str "second", .str "hello-world"]),
    (.str "example", .str "first")]

/-- models.rs 105, `externally_enum`. -/
def expectedExternallyEnum : Value :=
  .map [(.str "type", .str "object"), (.str "additionalProperties", .map [(.str "oneOf", .seq [.map [(.str "type", .str "string")], .map [(.str "type",
    .str "array"), (.str "items", .map [(.str "oneOf", .seq [.map [(.str "type", .str "string")], .map [(.str "description", .str "Second"), (.str "type",
    .str "string")]])])]])])]

/-- models.rs 138, `untagged_enum`. -/
def expectedUntaggedEnum : Value :=
  .map [(.str "oneOf", .seq [.map [(.str "type", .str "object"), (.str "properties", .map [(.str "value", .map [(.str "$ref", .str "#/components/schemas/NewType")])]),
    (.str "required", .seq [.str "value"])], .map [(.str "description", .str "Very simple variant"), (.str "type", .str "object"), (.str "properties",
    .map [(.str "another", .map [(.str "description", .str "Very simple struct"), (.str "type", .str "object"), (.str "properties", .map [(.str "asd",
    .map [(.str "type", .str "integer"), (.str "format", .str "int32")]), (.str "helloCamelCase", .map [(.str "$ref", .str "#/components/schemas/NewType")])]),
    (.str "required", .seq [.str "asd"])])]), (.str "required", .seq [.str "another"])]])]

/-- models.rs 178, `internally_tagged_enum`. -/
def expectedInternallyTaggedEnum : Value :=
  .map [(.str "oneOf", .seq [.map [(.str "type", .str "object"), (.str "properties", .map [(.str "asd", .map [(.str "type", .str "integer"), (.str "format",
    .str "int32")]), (.str "helloCamelCase", .map [(.str "$ref", .str "#/components/schemas/NewType")]), (.str "tag", .map [(.str "description", .str "InternallyTaggedEnum type variant"),
    (.str "type", .str "string"), (.str "enum", .seq [.str "test"]), (.str "example", .str "test")])]), (.str "required", .seq [.str "asd", .str "tag"])],
    .map [(.str "type", .str "object"), (.str "properties", .map [(.str "field", .map [(.str "type", .str "string")]), (.str "tag", .map [(.str "description",
    .str "InternallyTaggedEnum type variant"), (.str "type", .str "string"), (.str "enum", .seq [.str "another-test"]), (.str "example", .str "another-test")])]),
    (.str "required", .seq [.str "field", .str "tag"])]])]

/-- models.rs 225, `adjacently_tagged_enum`. -/
def expectedAdjacentlyTaggedEnum : Value :=
  .map [(.str "type", .str "object"), (.str "properties", .map [(.str "content", .map [(.str "oneOf", .seq [.map [(.str "type", .str "string")], .map [(.str
    "type", .str "array"), (.str "items", .map [(.str "oneOf", .seq [.map [(.str "$ref", .str "#/components/schemas/NewType")], .map [(.str "$ref", .str
    "#/components/schemas/NewType")]])])]])]), (.str "tag", .map [(.str "description", .str "AdjacentlyTaggedEnum type variant"), (.str "type", .str "string"),
    (.str "enum", .seq [.str "test", .str "another-test"]), (.str "example", .str "test")])]), (.str "required", .seq [.str "tag", .str "content"])]

/-- models.rs 262, `type_changed_field`. -/
def expectedTypeChangedField : Value :=
  .map [(.str "type", .str "object"), (.str "properties", .map [(.str "asd", .map [(.str "type", .str "integer")])]), (.str "required", .seq [.str "asd"])]

/-- models.rs 278, `tuples`. -/
def expectedTuples : Value :=
  .map [(.str "type", .str "array"), (.str "items", .map [(.str "oneOf", .seq [.map [(.str "type", .str "string")], .map [(.str "type", .str "integer"),
    (.str "format", .str "uint64")]])])]

/-- models.rs 302, `inner_type`. -/
def expectedInnerType : Value :=
  .map [(.str "type", .str "object"), (.str "properties", .map [(.str "boxed", .map [(.str "nullable", .bool true), (.str "type", .str "integer"), (.str
    "format", .str "int32")]), (.str "field", .map [(.str "nullable", .bool true), (.str "type", .str "string")]), (.str "super_optional", .map [(.str
    "nullable", .bool true), (.str "type", .str "string")])]), (.str "required", .seq [.str "field", .str "boxed"])]

/-- models.rs 327, `hash_map`. -/
def expectedHashMap : Value :=
  .map [(.str "type", .str "object"), (.str "additionalProperties", .map [(.str "type", .str "integer"), (.str "format", .str "int32")])]

/-- models.rs 344, `nullable_newtype`. -/
def expectedNullableNewtype : Value :=
  .map [(.str "nullable", .bool true), (.str "type", .str "integer"), (.str "format", .str "int32")]

/-- models.rs 363, `nullable_field`. -/
def expectedNullableField : Value :=
  .map [(.str "type", .str "object"), (.str "properties", .map [(.str "field", .map [(.str "nullable", .bool true), (.str "type", .str "integer"), (.str
    "format", .str "int32")])]), (.str "required", .seq [.str "field"])]

/-- models.rs 385, `recursive_field`. -/
def expectedRecursiveField : Value :=
  .map [(.str "type", .str "object"), (.str "properties", .map [(.str "field", .map [(.str "nullable", .bool true), (.str "type", .str "integer")])]),
    (.str "required", .seq [.str "field"])]

/-- models.rs 436, `example_with`. -/
def expectedExampleWith : Value :=
  .map [(.str "type", .str "integer"), (.str "format", .str "uint64"), (.str "example", .str "1599083980")]

/-- models.rs 455, `generic_struct`. -/
def expectedGenericStruct : Value :=
  .map [(.str "description", .str "Test"), (.str "type", .str "object"), (.str "properties", .map [(.str "body", .map [(.str "type", .str "integer"), (.str
    "format", .str "int32")])]), (.str "required", .seq [.str "body"])]

/-- models.rs 479, `generic_struct_with_ref`. -/
def expectedGenericStructWithRef : Value :=
  .map [(.str "type", .str "object"), (.str "properties", .map [(.str "message", .map [(.str "type", .str "string")]), (.str "test", .map [(.str "type",
    .str "integer"), (.str "format", .str "int32")])]), (.str "required", .seq [.str "message", .str "test"])]

/-- models.rs 505, `struct_with_any_field`. -/
def expectedStructWithAnyField : Value :=
  .map [(.str "type", .str "object"), (.str "properties", .map [(.str "field", .map [])]), (.str "required", .seq [.str "field"])]

/-- models.rs 520, `null_response`. -/
def expectedNullResponse : Value :=
  .map [(.str "description", .str "Always `null`"), (.str "nullable", .bool true), (.str "type", .str "string"), (.str "format", .str "null")]

/-- models.rs 534, `complex_enum`. -/
def expectedComplexEnum : Value :=
  .map [(.str "description", .str "Credit history kind"), (.str "type", .str "object"), (.str "additionalProperties", .map [(.str "description", .str "Credit history kind"),
    (.str "oneOf", .seq [.map [(.str "type", .str "object"), (.str "properties", .map [(.str "creditAmount", .map [(.str "type", .str "string")]), (.str
    "creditCurrency", .map [(.str "type", .str "string")]), (.str "pledgeAmount", .map [(.str "nullable", .bool true), (.str "type", .str "string")]),
    (.str "pledgeCurrency", .map [(.str "nullable", .bool true), (.str "type", .str "string")])]), (.str "required", .seq [.str "pledgeCurrency", .str
    "pledgeAmount", .str "creditCurrency", .str "creditAmount"])], .map [(.str "type", .str "string"), (.str "enum", .seq [.str "close_credit"]), (.str
    "example", .str "close_credit")], .map [(.str "type", .str "object"), (.str "properties", .map [(.str "pledgeAmount", .map [(.str "type", .str "string")]),
    (.str "pledgeCurrency", .map [(.str "type", .str "string")])]), (.str "required", .seq [.str "pledgeCurrency", .str "pledgeAmount"])]])])]

/-- models.rs 622, `manual_serialization`. -/
def expectedManualSerialization : Value :=
  .map [(.str "description", .str "Some type"), (.str "type", .str "object"), (.str "properties", .map [(.str "amount", .map [(.str "type", .str "string")]),
    (.str "id", .map [(.str "$ref", .str "#/components/schemas/TransactionId")])]), (.str "required", .seq [.str "id", .str "amount", .str "currency",
    .str "paymentType", .str "status"])]

/-- models.rs 675, `describe_type_macro`. -/
def expectedDescribeTypeMacro : Value :=
  .map [(.str "description", .str "Hello world"), (.str "type", .str "object"), (.str "properties", .map [(.str "id", .map [(.str "$ref", .str "#/components/schemas/TransactionId")]),
    (.str "test", .map [(.str "type", .str "object"), (.str "properties", .map [(.str "sub", .map [(.str "$ref", .str "#/components/schemas/TransactionId")])])]),
    (.str "test_array", .map [(.str "type", .str "array"), (.str "items", .map [(.str "type", .str "string")])]), (.str "test_boolean", .map [(.str "type",
    .str "boolean")]), (.str "test_integer", .map [(.str "type", .str "integer"), (.str "format", .str "timestamp"), (.str "example", .str "1591956576404")]),
    (.str "test_object", .map [(.str "type", .str "string"), (.str "enum", .seq [.str "aaa", .str "bbb"]), (.str "format", .str "uuid")]), (.str "test_raw_model",
    .map [(.str "description", .str "Test"), (.str "type", .str "string")])]), (.str "required", .seq [.str "id", .str "test"])]

/-- repr.rs 25, `repr_enum`. -/
def expectedReprEnum : Value :=
  .map [(.str "oneOf", .seq [.map [(.str "description", .str "IssuedLoansAndCredits variant"), (.str "type", .str "integer"), (.str "example", .str "5586")],
    .map [(.str "description", .str "LiabilitiesForSale variant"), (.str "type", .str "integer"), (.str "example", .str "4909")], .map [(.str "description",
    .str "InterestRateOnIssuedLoansAndCredits variant"), (.str "type", .str "integer"), (.str "example", .str "55861")], .map [(.str "description", .str
    "OtherIncomesFromCoreActivity variant"), (.str "type", .str "integer"), (.str "example", .str "819")], .map [(.str "description", .str "FinesOnIssuedLoansAndCredits variant"),
    (.str "type", .str "integer"), (.str "example", .str "55862")], .map [(.str "description", .str "InterestIncomes variant"), (.str "type", .str "integer"),
    (.str "example", .str "700")], .map [(.str "description", .str "CurrentAccounts variant"), (.str "type", .str "integer"), (.str "example", .str "651")],
    .map [(.str "description", .str "Pledge variant"), (.str "type", .str "integer"), (.str "example", .str "8")]])]

/-- api.rs 135, `expands_normally`. -/
def expectedExpandsNormally : Value :=
  .map [(.str "openapi", .str "3.0.3"), (.str "info", .map [(.str "title", .str "My super API"), (.str "version", .str "0.0.0")]), (.str "tags", .seq [.map
    [(.str "name", .str "admin"), (.str "description", .str "Super admin methods")], .map [(.str "name", .str "internal")]]), (.str "servers", .seq [.map
    [(.str "url", .str "https://my.super.server.com/v1")], .map [(.str "url", .str "http://test/123")]]), (.str "paths", .map [(.str "/test/{uuid}", .map
    [(.str "post", .map [(.str "operationId", .str "test"), (.str "deprecated", .bool true), (.str "security", .seq [.map [(.str "basicAuth", .seq []),
    (.str "test_auth", .seq [])]]), (.str "requestBody", .map [(.str "required", .bool true), (.str "description", .str ""), (.str "content", .map [(.str
    "application/json", .map [(.str "schema", .map [(.str "$ref", .str "#/components/schemas/InModule")])])])]), (.str "responses", .map [(.num 200, .map
    [(.str "description", .str "OK"), (.str "content", .map [(.str "application/json", .map [(.str "schema", .map [(.str "type", .str "array"), (.str "items",
    .map [(.str "type", .str "string")])])])])])]), (.str "callbacks", .map [(.str "myCallback", .map [(.str "/callback_url", .map [(.str "post", .map
    [(.str "requestBody", .map [(.str "required", .bool true), (.str "description", .str ""), (.str "content", .map [(.str "application/json", .map [(.str
    "schema", .map [(.str "$ref", .str "#/components/schemas/InModule")])])])]), (.str "responses", .map [(.num 200, .map [(.str "description", .str "OK"),
    (.str "content", .map [(.str "application/json", .map [(.str "schema", .map [(.str "type", .str "array"), (.str "items", .map [(.str "type", .str "string")])])])])])])])])])])]),
    (.str "parameters", .seq [.map [(.str "name", .str "uuid"), (.str "in", .str "path"), (.str "required", .bool true), (.str "schema", .map [(.str "description",
    .str "UUID ver. 4 [rfc](https://tools.ietf.org/html/rfc4122)"), (.str "type", .str "string"), (.str "format", .str "uuid"), (.str "example", .str "00000000-0000-0000-0000-000000000000")])]])]),
    (.str "/hello/world/{paramTest}", .map [(.str "summary", .str "Some test group of requests"), (.str "description", .str "Another test description"),
    (.str "get", .map [(.str "tags", .seq [.str "internal"]), (.str "summary", .str "Small summary"), (.str "operationId", .str "testGet"), (.str "description",
    .str "Small description"), (.str "responses", .map [(.num 200, .map [(.str "description", .str "Custom response desc"), (.str "content", .map [(.str
    "application/json", .map [(.str "schema", .map [(.str "type", .str "string")])])])])]), (.str "parameters", .seq [.map [(.str "name", .str "someParam"),
    (.str "description", .str "Test"), (.str "in", .str "query"), (.str "deprecated", .bool true), (.str "schema", .map [(.str "type", .str "integer"),
    (.str "format", .str "uint32")])]])]), (.str "post", .map [(.str "tags", .seq [.str "admin"]), (.str "operationId", .str "testPost"), (.str "requestBody",
    .map [(.str "required", .bool true), (.str "description", .str "Some interesting description"), (.str "content", .map [(.str "application/json", .map
    [(.str "schema", .map [(.str "type", .str "string")])])])]), (.str "responses", .map [(.num 200, .map [(.str "description", .str "OK"), (.str "content",
    .map [(.str "application/json", .map [(.str "schema", .map [(.str "$ref", .str "#/components/schemas/SimpleEnum")])])])])])]), (.str "delete", .map
    [(.str "responses", .map [(.num 200, .map [(.str "description", .str "OK")])])]), (.str "options", .map [(.str "responses", .map [(.num 200, .map [(.str
    "description", .str "OK"), (.str "content", .map [(.str "application/json", .map [(.str "schema", .map [(.str "description", .str "Always `null`"),
    (.str "nullable", .bool true), (.str "type", .str "string"), (.str "format", .str "null")])])])])])]), (.str "parameters", .seq [.map [(.str "name",
    .str "asd"), (.str "in", .str "header"), (.str "required", .bool true), (.str "schema", .map [(.str "type", .str "string")])], .map [(.str "name",
    .str "paramTest"), (.str "in", .str "path"), (.str "required", .bool true), (.str "schema", .map [(.str "type", .str "string")])], .map [(.str "name",
    .str "test"), (.str "in", .str "query"), (.str "schema", .map [(.str "type", .str "integer"), (.str "format", .str "int32")])], .map [(.str "name",
    .str "x-request-id"), (.str "description", .str "Test"), (.str "in", .str "header"), (.str "required", .bool true), (.str "schema", .map [(.str "type",
    .str "string")])]])])]), (.str "components", .map [(.str "schemas", .map [(.str "InModule", .map [(.str "type", .str "object"), (.str "properties",
    .map [(.str "field", .map [(.str "type", .str "string")]), (.str "second", .map [(.str "$ref", .str "#/components/schemas/Test")])]), (.str "required",
    .seq [.str "field", .str "second"])]), (.str "SimpleEnum", .map [(.str "description", .str "Simple enum"), (.str "type", .str "string"), (.str "enum",
    .seq [.str "test", .str "another", .str "yay"]), (.str "example", .str "test")]), (.str "Test", .map [(.str "type", .str "object"), (.str "properties",
    .map [(.str "another_field", .map [(.str "nullable", .bool true), (.str "type", .str "string")])]), (.str "required", .seq [.str "another_field"])])]),
    (.str "securitySchemes", .map [(.str "ApiKeyAuth", .map [(.str "type", .str "apiKey"), (.str "in", .str "query"), (.str "name", .str "X-API-KEY"),
    (.str "description", .str "And another test description")]), (.str "basicAuth", .map [(.str "type", .str "http"), (.str "scheme", .str "basic"), (.str
    "description", .str "Another test description")]), (.str "bearerAuth", .map [(.str "type", .str "http"), (.str "scheme", .str "bearer"), (.str "bearerFormat",
    .str "JWT"), (.str "description", .str "Test description")]), (.str "test_auth", .map [(.str "type", .str "apiKey"), (.str "in", .str "query"), (.str
    "name", .str "X-MY-SUPER-API")])])])]

/-- README.md 187, the result of `print_api`. -/
def expectedReadme : Value :=
  .map [(.str "openapi", .str "3.0.3"), (.str "info", .map [(.str "title", .str "My super API"), (.str "version", .str "0.0.0")]), (.str "tags", .seq [.map
    [(.str "name", .str "admin"), (.str "description", .str "Super admin methods")], .map [(.str "name", .str "internal")]]), (.str "servers", .seq [.map
    [(.str "url", .str "https://my.super.server.com/v1")]]), (.str "paths", .map [(.str "/hello/world/{paramTest}", .map [(.str "summary", .str "Some test group of requests"),
    (.str "description", .str "Another test description"), (.str "get", .map [(.str "tags", .seq [.str "internal"]), (.str "summary", .str "Small summary"),
    (.str "description", .str "Small description"), (.str "deprecated", .bool true), (.str "responses", .map [(.num 200, .map [(.str "description", .str
    "OK"), (.str "content", .map [(.str "application/json", .map [(.str "schema", .map [(.str "type", .str "string")])])])]), (.num 418, .map [(.str "description",
    .str "Optional response description"), (.str "content", .map [(.str "application/json", .map [(.str "schema", .map [(.str "type", .str "string")])])])])]),
    (.str "parameters", .seq [.map [(.str "name", .str "someParam"), (.str "description", .str "Test"), (.str "in", .str "query"), (.str "schema", .map
    [(.str "type", .str "integer"), (.str "format", .str "uint32")])]])]), (.str "post", .map [(.str "tags", .seq [.str "admin"]), (.str "security", .seq
    [.map [(.str "bearerAuth", .seq [])]]), (.str "requestBody", .map [(.str "required", .bool true), (.str "description", .str "Some interesting description"),
    (.str "content", .map [(.str "application/json", .map [(.str "schema", .map [(.str "$ref", .str "#/components/schemas/GenericStructWithRef")])])])]),
    (.str "responses", .map [(.num 200, .map [(.str "description", .str "OK"), (.str "content", .map [(.str "application/json", .map [(.str "schema", .map
    [(.str "$ref", .str "#/components/schemas/SuperResponse")])])])])]), (.str "callbacks", .map [(.str "callbackUrl", .map [(.str "/callbackUrl", .map
    [(.str "post", .map [(.str "responses", .map [(.num 200, .map [(.str "description", .str "OK"), (.str "content", .map [(.str "application/json", .map
    [(.str "schema", .map [(.str "type", .str "array"), (.str "items", .map [(.str "type", .str "string")])])])])])])])])])])]), (.str "parameters", .seq
    [.map [(.str "name", .str "paramTest"), (.str "in", .str "path"), (.str "required", .bool true), (.str "schema", .map [(.str "type", .str "string")])],
    .map [(.str "name", .str "x-request-id"), (.str "description", .str "Test"), (.str "in", .str "header"), (.str "required", .bool true), (.str "schema",
    .map [(.str "type", .str "string")])]])])]), (.str "components", .map [(.str "schemas", .map [(.str "AdjacentlyTaggedEnum", .map [(.str "type", .str
    "object"), (.str "properties", .map [(.str "content", .map [(.str "oneOf", .seq [.map [(.str "type", .str "string")], .map [(.str "type", .str "array"),
    (.str "items", .map [(.str "oneOf", .seq [.map [(.str "$ref", .str "#/components/schemas/NewType")], .map [(.str "$ref", .str "#/components/schemas/NewType")]])])]])]),
    (.str "tag", .map [(.str "description", .str "AdjacentlyTaggedEnum type variant"), (.str "type", .str "string"), (.str "enum", .seq [.str "first",
    .str "second"]), (.str "example", .str "first")])]), (.str "required", .seq [.str "tag", .str "content"])]), (.str "ExternallyTaggedEnum", .map [(.str
    "type", .str "object"), (.str "additionalProperties", .map [(.str "oneOf", .seq [.map [(.str "type", .str "string")], .map [(.str "type", .str "array"),
    (.str "items", .map [(.str "oneOf", .seq [.map [(.str "type", .str "string")], .map [(.str "description", .str "Second"), (.str "type", .str "string")]])])]])])]),
    (.str "GenericStructWithRef", .map [(.str "type", .str "object"), (.str "properties", .map [(.str "message", .map [(.str "type", .str "string")]),
    (.str "test", .map [(.str "type", .str "integer"), (.str "format", .str "int64")])]), (.str "required", .seq [.str "message", .str "test"])]), (.str
    "InternallyTaggedEnum", .map [(.str "oneOf", .seq [.map [(.str "type", .str "object"), (.str "properties", .map [(.str "first_field", .map [(.str "type",
    .str "integer"), (.str "format", .str "int32")]), (.str "second", .map [(.str "description", .str "Field description"), (.str "type", .str "string")]),
    (.str "tag", .map [(.str "description", .str "InternallyTaggedEnum type variant"), (.str "type", .str "string"), (.str "enum", .seq [.str "first"]),
    (.str "example", .str "first")])]), (.str "required", .seq [.str "first_field", .str "second", .str "tag"])], .map [(.str "type", .str "object"), (.str
    "properties", .map [(.str "field", .map [(.str "type", .str "string")]), (.str "tag", .map [(.str "description", .str "InternallyTaggedEnum type variant"),
    (.str "type", .str "string"), (.str "enum", .seq [.str "second"]), (.str "example", .str "second")])]), (.str "required", .seq [.str "field", .str
    "tag"])]])]), (.str "NewType", .map [(.str "description", .str "newtype string"), (.str "type", .str "string"), (.str "format", .str "id"), (.str "example",
    .str "abcd0001")]), (.str "SimpleEnum", .map [(.str "description", .str "Simple enum"), (.str "type", .str "string"), (.str "enum", .seq [.str "test",
    .str "another", .str "yay"]), (.str "example", .str "test")]), (.str "StructWithComplexObjects", .map [(.str "type", .str "object"), (.str "properties",
    .map [(.str "boxed", .map [(.str "nullable", .bool true), (.str "type", .str "integer"), (.str "format", .str "int32")]), (.str "field", .map [(.str
    "nullable", .bool true), (.str "type", .str "string")]), (.str "super_optional", .map [(.str "nullable", .bool true), (.str "type", .str "string")])]),
    (.str "required", .seq [.str "field", .str "boxed"])]), (.str "SuperResponse", .map [(.str "type", .str "object"), (.str "properties", .map [(.str
    "adjacently_tagged_enum", .map [(.str "$ref", .str "#/components/schemas/AdjacentlyTaggedEnum")]), (.str "externally_tagged_enum", .map [(.str "$ref",
    .str "#/components/schemas/ExternallyTaggedEnum")]), (.str "internally_tagged_enum", .map [(.str "$ref", .str "#/components/schemas/InternallyTaggedEnum")]),
    (.str "new_type", .map [(.str "$ref", .str "#/components/schemas/NewType")]), (.str "simple_enum", .map [(.str "$ref", .str "#/components/schemas/SimpleEnum")]),
    (.str "struct_with_complex_objects", .map [(.str "$ref", .str "#/components/schemas/StructWithComplexObjects")]), (.str "type_changed_struct", .map
    [(.str "$ref", .str "#/components/schemas/TypeChangedStruct")]), (.str "untagged_enum", .map [(.str "$ref", .str "#/components/schemas/UntaggedEnum")])]),
    (.str "required", .seq [.str "simple_enum", .str "new_type", .str "externally_tagged_enum", .str "untagged_enum", .str "internally_tagged_enum", .str
    "adjacently_tagged_enum", .str "type_changed_struct", .str "struct_with_complex_objects"])]), (.str "TypeChangedStruct", .map [(.str "type", .str "object"),
    (.str "properties", .map [(.str "timestamp", .map [(.str "description", .str "UTC timestamp in milliseconds"), (.str "type", .str "integer"), (.str
    "format", .str "int64")])]), (.str "required", .seq [.str "timestamp"])]), (.str "UntaggedEnum", .map [(.str "oneOf", .seq [.map [(.str "type", .str
    "object"), (.str "properties", .map [(.str "value", .map [(.str "$ref", .str "#/components/schemas/NewType")])]), (.str "required", .seq [.str "value"])],
    .map [(.str "description", .str "Variant description"), (.str "type", .str "object"), (.str "properties", .map [(.str "another", .map [(.str "description",
    .str "Inlined struct"), (.str "type", .str "object"), (.str "properties", .map [(.str "first_field", .map [(.str "type", .str "integer"), (.str "format",
    .str "int32")]), (.str "second", .map [(.str "description", .str "Field description"), (.str "type", .str "string")])]), (.str "required", .seq [.str
    "first_field", .str "second"])])]), (.str "required", .seq [.str "another"])]])])]), (.str "securitySchemes", .map [(.str "bearerAuth", .map [(.str
    "type", .str "http"), (.str "scheme", .str "bearer"), (.str "bearerFormat", .str "JWT")])])])]

end Verif.Suite
