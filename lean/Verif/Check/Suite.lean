import Verif.Check.Expected
import Verif.Model.Macros
/-!
# The project's test suite, run on the model

Every `#[test]` of test_suite/tests/*.rs: its input is written down as the derive macro or `describe_api!` receives
it, run through the whole model (attribute parsing, code generation, schema generation, serialization) and
compared with the document the test expects.  These are checks that the model behaves like the code on the code's
own examples; they are not claims about all inputs.
-/

namespace Verif.Suite

mutual
/-- Equality of serialized values, as a test. -/
def same : Value → Value → Bool
  | .null, .null => true
  | .bool a, .bool b => a == b
  | .str a, .str b => a == b
  | .seq as, .seq bs => sameSeq as bs
  | .map as, .map bs => sameMap as bs
  | _, _ => false
def sameSeq : List Value → List Value → Bool
  | [], [] => true
  | a :: as, b :: bs => same a b && sameSeq as bs
  | _, _ => false
def sameMap : List (Key × Value) → List (Key × Value) → Bool
  | [], [] => true
  | (k, a) :: as, (l, b) :: bs => k == l && same a b && sameMap as bs
  | _, _ => false
end

mutual
theorem same_eq : ∀ {a b : Value}, same a b = true → a = b
  | .null, .null, _ => rfl
  | .bool _, .bool _, h => by simp only [same, beq_iff_eq] at h; rw [h]
  | .str _, .str _, h => by simp only [same, beq_iff_eq] at h; rw [h]
  | .seq as, .seq bs, h => by simp only [same] at h; rw [sameSeq_eq h]
  | .map as, .map bs, h => by simp only [same] at h; rw [sameMap_eq h]
  | .null, .bool _, h | .null, .str _, h | .null, .seq _, h | .null, .map _, h
  | .bool _, .null, h | .bool _, .str _, h | .bool _, .seq _, h | .bool _, .map _, h
  | .str _, .null, h | .str _, .bool _, h | .str _, .seq _, h | .str _, .map _, h
  | .seq _, .null, h | .seq _, .bool _, h | .seq _, .str _, h | .seq _, .map _, h
  | .map _, .null, h | .map _, .bool _, h | .map _, .str _, h | .map _, .seq _, h => by simp [same] at h
theorem sameSeq_eq : ∀ {as bs : List Value}, sameSeq as bs = true → as = bs
  | [], [], _ => rfl
  | a :: as, b :: bs, h => by
    simp only [sameSeq, Bool.and_eq_true] at h
    rw [same_eq h.1, sameSeq_eq h.2]
  | [], _ :: _, h | _ :: _, [], h => by simp [sameSeq] at h
theorem sameMap_eq : ∀ {as bs : List (Key × Value)}, sameMap as bs = true → as = bs
  | [], [], _ => rfl
  | (k, a) :: as, (l, b) :: bs, h => by
    simp only [sameMap, Bool.and_eq_true, beq_iff_eq] at h
    rw [h.1.1, same_eq h.1.2, sameMap_eq h.2]
  | [], _ :: _, h | _ :: _, [], h => by simp [sameMap] at h
end

/-- Whether there is a value and it is the given one. -/
def gives : Option Value → Value → Bool
  | some a, b => same a b
  | none, _ => false

theorem gives_eq {a : Option Value} {b : Value} (h : gives a b = true) : a = some b := by
  cases a with
  | none => cases h
  | some a => rw [same_eq (a := a) (b := b) h]

def oracle : Oracle := ⟨Char.isUpper, fun _ => true, fun _ => true⟩

def attr (path : String) (items : List NestedMeta) : Attribute := ⟨path, .list items⟩
def word (p : String) : NestedMeta := .item (.path p)
def nv (p s : String) : NestedMeta := .item (.nameValue p (.str s))
def txt (s : String) : NestedMeta := .lit (.str s)
def fld (name : String) (ty : Ty) (attrs : List Attribute := []) : SynField Ty := ⟨some name, attrs, ty⟩
def tfld (ty : Ty) (attrs : List Attribute := []) : SynField Ty := ⟨none, attrs, ty⟩
def var (name : String) (fields : SynFields Ty := .unit) (attrs : List Attribute := []) : SynVariant Ty :=
  ⟨name, attrs, fields, none⟩

/-- What the generated impl of an item is made of; an item that does not compile has none. -/
def compiled (input : DeriveInput Ty) : Option (Container Ty) :=
  match derive oracle input with
  | .code c _ => some c
  | _ => none

/-- `struct _Unused;`, for indices outside of the program. -/
def unused : Container Ty :=
  ⟨"_Unused", (containerAttrsFromAst oracle (⟨"_Unused", [], .struct .unit⟩ : DeriveInput Ty)).1, .struct .unit []⟩

/-- The program consisting of the given items; `now()` is the function of models.rs 420-429. -/
def program (items : List (DeriveInput Ty)) : Env :=
  ⟨fun i => (items[i]?.bind compiled).getD unused, fun src => if src = "now()" then "1599083980" else src⟩

/-- `serde_yaml::to_string(&T::get_schema(&mut Components::new()))`, for the given depth of recursion. -/
def schema (items : List (DeriveInput Ty)) (t : Ty) : Option Value :=
  match items.mapM compiled with
  | none => none
  | some _ => (getSchema (program items) 9 t .empty).map fun r => r.1.ser

abbrev str : Ty := .prim .string

/-- models.rs 7-13. -/
def newType : DeriveInput Ty := ⟨"NewType",
  [attr "opg" [txt "New type description", nv "format" "uuid", nv "example" "000-000"]], .struct (.unnamed [tfld str])⟩
def newNewType : DeriveInput Ty := ⟨"NewNewType", [attr "opg" [txt "Override description"]],
  .struct (.unnamed [tfld (.named 0)])⟩

example : schema [newType] (.named 0) = some expectedNewtype := gives_eq (by decide +kernel)
example : schema [newType, newNewType] (.named 1) = some expectedNewtype2 := gives_eq (by decide +kernel)

/-- models.rs 40-46. -/
def simpleStruct : DeriveInput Ty := ⟨"SimpleStruct", [attr "serde" [nv "rename_all" "camelCase"]], .struct (.named [
  fld "asd" (.prim .i32), fld "hello_camel_case" (.named 0) [attr "opg" [word "optional"]]])⟩

example : schema [newType, simpleStruct] (.named 1) = some expectedSimpleStruct := gives_eq (by decide +kernel)

/-- models.rs 67-74. -/
def stringEnumTest : DeriveInput Ty := ⟨"StringEnumTest",
  [attr "serde" [nv "rename_all" "kebab-case"], attr "opg" [txt "New type description"]],
  .enum [var "First", var "Second", var "HelloWorld"]⟩

example : schema [stringEnumTest] (.named 0) = some expectedStringEnum := gives_eq (by decide +kernel)

/-- models.rs 93-98. -/
def externallyTaggedEnum : DeriveInput Ty := ⟨"ExternallyTaggedEnum", [attr "serde" [nv "rename_all" "kebab-case"]], .enum [
  var "Test" (.unnamed [tfld str]),
  var "AnotherTest" (.unnamed [tfld str, tfld str [attr "opg" [txt "Second"]]])]⟩

example : schema [externallyTaggedEnum] (.named 0) = some expectedExternallyEnum := gives_eq (by decide +kernel)

/-- models.rs 120-131. -/
def untaggedEnumTest : DeriveInput Ty := ⟨"UntaggedEnumTest", [attr "serde" [word "untagged"]], .enum [
  var "First" (.named [fld "value" (.named 0)]),
  var "Second" (.named [fld "another" (.named 1) [attr "opg" [txt "Very simple struct", word "inline"]]])
    [attr "opg" [txt "Very simple variant"]]]⟩

example : schema [newType, simpleStruct, untaggedEnumTest] (.named 2) = some expectedUntaggedEnum := gives_eq (by decide +kernel)

/-- models.rs 166-171. -/
def internallyTaggedEnum : DeriveInput Ty := ⟨"InternallyTaggedEnum",
  [attr "serde" [nv "tag" "tag", nv "rename_all" "kebab-case"]], .enum [
    var "Test" (.unnamed [tfld (.named 1)]), var "AnotherTest" (.named [fld "field" str])]⟩

example : schema [newType, simpleStruct, internallyTaggedEnum] (.named 2) = some expectedInternallyTaggedEnum := gives_eq (by decide +kernel)

/-- models.rs 213-218. -/
def adjacentlyTaggedEnum : DeriveInput Ty := ⟨"AdjacentlyTaggedEnum",
  [attr "serde" [nv "tag" "tag", nv "content" "content", nv "rename_all" "kebab-case"]], .enum [
    var "Test" (.unnamed [tfld str]), var "AnotherTest" (.unnamed [tfld (.named 0), tfld (.named 0)])]⟩

example : schema [newType, adjacentlyTaggedEnum] (.named 1) = some expectedAdjacentlyTaggedEnum := gives_eq (by decide +kernel)

/-- models.rs 250-255. -/
def typeChangedStruct : DeriveInput Ty := ⟨"TypeChangedStruct", [attr "serde" [nv "rename_all" "camelCase"]],
  .struct (.named [fld "asd" str [attr "opg" [word "integer"]]])⟩

example : schema [typeChangedStruct] (.named 0) = some expectedTypeChangedField := gives_eq (by decide +kernel)

/-- models.rs 273-287. -/
example : schema [] (.tuple [str, .prim .u64]) = some expectedTuples := gives_eq (by decide +kernel)

/-- models.rs 289-295. -/
def structWithInner : DeriveInput Ty := ⟨"StructWithInner", [], .struct (.named [fld "field" (.option str),
  fld "super_optional" (.option (.option str)) [attr "opg" [word "optional"]],
  fld "boxed" (.wrap .box (.option (.prim .i32)))])⟩

example : schema [structWithInner] (.named 0) = some expectedInnerType := gives_eq (by decide +kernel)

/-- models.rs 322-334. -/
example : schema [] (.dict .hashMap (.prim .i32)) = some expectedHashMap := gives_eq (by decide +kernel)

/-- models.rs 336-337. -/
def nullableNewtype : DeriveInput Ty := ⟨"NullableNewtype", [], .struct (.unnamed [tfld (.option (.prim .i32))])⟩

example : schema [nullableNewtype] (.named 0) = some expectedNullableNewtype := gives_eq (by decide +kernel)

/-- models.rs 352-356. -/
def structWithNullable : DeriveInput Ty := ⟨"StructWithNullable", [], .struct (.named [
  fld "field" (.prim .i32) [attr "opg" [word "nullable"]]])⟩

example : schema [structWithNullable] (.named 0) = some expectedNullableField := gives_eq (by decide +kernel)

/-- models.rs 397-414. -/
def creditHistoryMetaResponse : DeriveInput Ty := ⟨"CreditHistoryMetaResponse",
  [attr "serde" [nv "rename_all" "snake_case"], attr "opg" [txt "Credit history kind"]], .enum [
    var "CreateCredit" (.named [fld "pledge_currency" (.option str), fld "pledge_amount" (.option str),
      fld "credit_currency" str, fld "credit_amount" str]) [attr "serde" [nv "rename_all" "camelCase"]],
    var "CloseCredit",
    var "FreezePledge" (.named [fld "pledge_currency" str, fld "pledge_amount" str])
      [attr "serde" [nv "rename_all" "camelCase"]]]⟩

example : schema [creditHistoryMetaResponse] (.named 0) = some expectedComplexEnum := gives_eq (by decide +kernel)

/-- models.rs 416-418. -/
def exampleWith : DeriveInput Ty := ⟨"ExampleWith", [attr "opg" [nv "example_with" "now()"]],
  .struct (.unnamed [tfld (.prim .u64)])⟩

example : schema [exampleWith] (.named 0) = some expectedExampleWith := gives_eq (by decide +kernel)

/-- models.rs 444-448, instantiated with `i32`. -/
def genericStruct : DeriveInput Ty := ⟨"GenericStruct", [attr "opg" [txt "Test"]], .struct (.named [fld "body" (.prim .i32)])⟩

example : schema [genericStruct] (.named 0) = some expectedGenericStruct := gives_eq (by decide +kernel)

/-- models.rs 468-472, instantiated with `i32`. -/
def genericStructWithRef : DeriveInput Ty := ⟨"GenericStructWithRef", [], .struct (.named [
  fld "message" (.wrap .ref (.prim .str)), fld "test" (.prim .i32)])⟩

example : schema [genericStructWithRef] (.named 0) = some expectedGenericStructWithRef := gives_eq (by decide +kernel)

/-- models.rs 494-498; the type of the field has no schema and none is asked for. -/
def structWithAny : DeriveInput Ty := ⟨"StructWithAny", [], .struct (.named [
  fld "field" .unit [attr "opg" [word "any"]]])⟩

example : schema [structWithAny] (.named 0) = some expectedStructWithAnyField := gives_eq (by decide +kernel)

/-- models.rs 515-527. -/
example : schema [] .unit = some expectedNullResponse := gives_eq (by decide +kernel)

/-- models.rs 574-638. -/
def manualModel : Model := ⟨some "Some type", .single ⟨false, .object {
  properties := BMap.insert "amount" (.inline ⟨none, .single ⟨false, .string none none none⟩⟩)
    (BMap.insert "id" (.link "TransactionId") [])
  additional := none
  required := ["id", "amount", "currency", "paymentType", "status"] }⟩⟩

example : manualModel.ser = expectedManualSerialization := same_eq (by decide +kernel)

/-- models.rs 640-710. -/
def describedModel : TypeDecl := .object (some "Hello world") [
  .mk "id" true (.link "TransactionId"),
  .mk "test" true (.inline (.object none [.mk "sub" false (.link "TransactionId")])),
  .mk "test_object" false (.inline (.string none (some "uuid") none (some ["aaa", "bbb"]))),
  .mk "test_integer" false (.inline (.integer none (some "timestamp") (some "1591956576404"))),
  .mk "test_boolean" false (.inline (.boolean none)),
  .mk "test_array" false (.inline (.array none (.inline (.string none none none none)))),
  .mk "test_raw_model" false (.inline (.rawModel (TypeDecl.string (some "Test") none none none).model))]

theorem type_expands : describedModel.model.ser = expectedDescribeTypeMacro := same_eq (by decide +kernel)

/-- models.rs 712-757: `valid_models_context`, `invalid_models_context`. -/
def someResponse : Model := (TypeDecl.object none [.mk "id" false (.link "TransactionId")]).model

example : ((Components.empty.addModel "TransactionId" (TypeDecl.string (some "Transaction UUID") (some "uuid")
    (some "000..000-000..000-00..00") none).model).addModel "SomeResponse" someResponse).verifySchemas = .ok () := rfl
example : (Components.empty.addModel "SomeResponse" someResponse).verifySchemas = .error "TransactionId" := rfl

/-- repr.rs 7-18. -/
def ledgerAccountId : DeriveInput Ty := ⟨"LedgerAccountId", [attr "repr" [word "i32"]], .enum [
  ⟨"IssuedLoansAndCredits", [], .unit, some "5586"⟩, ⟨"LiabilitiesForSale", [], .unit, some "4909"⟩,
  ⟨"InterestRateOnIssuedLoansAndCredits", [], .unit, some "55861"⟩,
  ⟨"OtherIncomesFromCoreActivity", [], .unit, some "819"⟩, ⟨"FinesOnIssuedLoansAndCredits", [], .unit, some "55862"⟩,
  ⟨"InterestIncomes", [], .unit, some "700"⟩, ⟨"CurrentAccounts", [], .unit, some "651"⟩,
  ⟨"Pledge", [], .unit, some "8"⟩]⟩

example : schema [ledgerAccountId] (.named 0) = some expectedReprEnum := gives_eq (by decide +kernel)

/-! ## api.rs -/

/-- api.rs 7-28: type 0 `SimpleEnum`, 1 `request::InModule`, 2 `request::Test`. -/
def apiItems : List (DeriveInput Ty) := [
  ⟨"SimpleEnum", [attr "serde" [nv "rename_all" "camelCase"], attr "opg" [txt "Simple enum"]],
    .enum [var "Test", var "Another", var "Yay"]⟩,
  ⟨"InModule", [], .struct (.named [fld "field" str, fld "second" (.named 2)])⟩,
  ⟨"Test", [], .struct (.named [fld "another_field" (.option str)])⟩]

/-- api.rs 31-131. -/
def api : Api := [
  .info [.title "My super API", .version "0.0.0"],
  .tags [("internal", none), ("admin", some "Super admin methods")],
  .servers [("https://my.super.server.com/v1", none), ("http://test/123", none)],
  .securitySchemes [
    .http "bearerAuth" [.bearer, .bearerFormat "JWT", .description "Test description"],
    .http "basicAuth" [.basic, .description "Another test description"],
    .apiKey "ApiKeyAuth" [.parameterIn .query, .name "X-API-KEY", .description "And another test description"]],
  .paths [
    .mk [.literal "test", .bare ⟨false, [("uuid", []), ("Uuid", [])]⟩ .uuid] [
      .operation .post [
        .operationId "test",
        .security [[.scheme "test_auth" (.apiKey ⟨.query, "X-MY-SUPER-API", none⟩) [], .literal "basicAuth" []]],
        .deprecated true,
        .body (.type (.named 1)),
        .response 200 none (.type (.seq .vec str)),
        .callbacks [.ident "myCallback" [.mk [.literal "callback_url"] [
          .operation .post [.body (.type (.named 1)), .response 200 none (.type (.seq .vec str))]]]]]],
    .mk [.literal "hello", .literal "world", .named "paramTest" str] [
      .summary "Some test group of requests",
      .description "Another test description",
      .parameters [.header "x-request-id" [.description "Test"], .query "test" (.prim .i32) [], .header "asd" []],
      .operation .get [
        .operationId "testGet", .tags ["internal"], .summary "Small summary", .description "Small description",
        .parameters [.query "someParam" (.prim .u32) [.description "Test", .deprecated true]],
        .response 200 (some "Custom response desc") (.type str)],
      .operation .post [
        .operationId "testPost", .tags ["admin"],
        .body (.props [.description "Some interesting description", .schema str, .required true]),
        .response 200 none (.type (.named 0))],
      .operation .delete [.response 200 none .absent],
      .operation .options [.response 200 none (.type .unit)]]]]

example : apiItems.mapM compiled ≠ none := nofun

theorem suite_expands : (describeApi (⟨program apiItems, 9, fun c => if c = 200 then some "OK" else none⟩ : Ctx) api).map Opg.ser =
    some expectedExpandsNormally := gives_eq (by decide +kernel)

end Verif.Suite
