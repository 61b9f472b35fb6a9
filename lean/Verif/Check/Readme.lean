import Verif.Check.Tokens
/-!
# The example of README.md, run on the model

The types (README.md 27-115), the tokens of the API (README.md 119-178) and the printed document (README.md 187-448).
-/

namespace Verif.Suite

/-- README.md 27-115, in this order; type 8 is `GenericStructWithRef<'static, i64>`. -/
def readmeItems : List (DeriveInput Ty) := [
  ⟨"SimpleEnum", [attr "serde" [nv "rename_all" "camelCase"], attr "opg" [txt "Simple enum"]],
    .enum [var "Test", var "Another", var "Yay"]⟩,
  ⟨"NewType", [attr "opg" [txt "newtype string", nv "format" "id", nv "example" "abcd0001"]], .struct (.unnamed [tfld str])⟩,
  ⟨"SimpleStruct", [], .struct (.named [fld "first_field" (.prim .i32),
    fld "second" str [attr "opg" [txt "Field description"]]])⟩,
  ⟨"ExternallyTaggedEnum", [attr "serde" [nv "rename_all" "kebab-case"]], .enum [
    var "Test" (.unnamed [tfld str]),
    var "AnotherTest" (.unnamed [tfld str, tfld str [attr "opg" [txt "Second"]]])]⟩,
  ⟨"UntaggedEnum", [attr "serde" [word "untagged"]], .enum [
    var "First" (.named [fld "value" (.named 1)]),
    var "Second" (.named [fld "another" (.named 2) [attr "opg" [txt "Inlined struct", word "inline"]]])
      [attr "opg" [txt "Variant description"]]]⟩,
  ⟨"InternallyTaggedEnum", [attr "serde" [nv "tag" "tag", nv "rename_all" "lowercase"]], .enum [
    var "First" (.unnamed [tfld (.named 2)]), var "Second" (.named [fld "field" str])]⟩,
  ⟨"AdjacentlyTaggedEnum", [attr "serde" [nv "tag" "tag", nv "content" "content", nv "rename_all" "lowercase"]], .enum [
    var "First" (.unnamed [tfld str]), var "Second" (.unnamed [tfld (.named 1), tfld (.named 1)])]⟩,
  ⟨"TypeChangedStruct", [attr "serde" [nv "rename_all" "camelCase"]], .struct (.named [
    fld "timestamp" .naiveDateTime [attr "serde" [nv "with" "chrono::naive::serde::ts_milliseconds"],
      attr "opg" [txt "UTC timestamp in milliseconds", word "integer", nv "format" "int64"]]])⟩,
  ⟨"GenericStructWithRef", [], .struct (.named [fld "message" (.wrap .ref (.prim .str)), fld "test" (.prim .i64)])⟩,
  ⟨"StructWithComplexObjects", [], .struct (.named [
    fld "super_optional" (.option (.option str)) [attr "serde" [nv "skip_serializing_if" "Option::is_none"],
      attr "opg" [word "optional"]],
    fld "field" (.option str),
    fld "boxed" (.wrap .box (.option (.prim .i32)))])⟩,
  ⟨"SuperResponse", [], .struct (.named [
    fld "simple_enum" (.named 0),
    fld "newtype" (.named 1) [attr "serde" [nv "rename" "new_type"]],
    fld "externally_tagged_enum" (.named 3),
    fld "untagged_enum" (.named 4),
    fld "internally_tagged_enum" (.named 5),
    fld "adjacently_tagged_enum" (.named 6),
    fld "type_changed_struct" (.named 7),
    fld "struct_with_complex_objects" (.named 9)])⟩]

example : readmeItems.mapM compiled ≠ none := nofun

/-- README.md 119-178. -/
def readme : Api := [
  .info [.title "My super API", .version "0.0.0"],
  .tags [("internal", none), ("admin", some "Super admin methods")],
  .servers [("https://my.super.server.com/v1", none)],
  .securitySchemes [.http "bearerAuth" [.bearer, .bearerFormat "JWT"]],
  .paths [.mk [.literal "hello", .literal "world", .named "paramTest" str] [
    .summary "Some test group of requests",
    .description "Another test description",
    .parameters [.header "x-request-id" [.description "Test", .required true]],
    .operation .get [
      .tags ["internal"], .summary "Small summary", .description "Small description", .deprecated true,
      .parameters [.query "someParam" (.prim .u32) [.description "Test"]],
      .response 200 none (.type str),
      .response 418 (some "Optional response description") (.type str)],
    .operation .post [
      .tags ["admin"],
      .security [[.literal "bearerAuth" []]],
      .body (.props [.description "Some interesting description", .schema (.named 8), .required true]),
      .response 200 none (.type (.named 10)),
      .callbacks [.ident "callbackUrl" [.mk [.literal "callbackUrl"] [
        .operation .post [.response 200 none (.type (.seq .vec str))]]]]]]]]

theorem readme_prints : (describeApi (⟨program readmeItems, 9,
      fun c => if c = 200 then some "OK" else if c = 418 then some "I'm a teapot" else none⟩ : Ctx) readme).map Opg.ser =
    some expectedReadme := gives_eq (by decide +kernel)

/-- `GenericStructWithRef<'static, i64>` -/
def genericPath : TypePath :=
  ⟨false, [("GenericStructWithRef", [⟨false, [("'static", [])]⟩, ⟨false, [("i64", [])]⟩])]⟩

/-- The names README.md 119-178 uses. -/
def readmeScope : Scope where
  val _ := none
  ty
    | ⟨false, [("std", []), ("vec", []), ("Vec", [⟨false, [("String", [])]⟩])]⟩ => some (.seq .vec str)
    | ⟨false, [("GenericStructWithRef", [⟨false, [("'static", [])]⟩, ⟨false, [("i64", [])]⟩])]⟩ => some (.named 8)
    | ⟨false, [("SuperResponse", [])]⟩ => some (.named 10)
    | ⟨false, [("String", [])]⟩ => some str
    | ⟨false, [("u32", [])]⟩ => some (.prim .u32)
    | _ => none

/-- README.md 120-177. -/
def readmeTokens : List TT :=
  [TT.comma].intercalate [
    key "info" (bracesComma [key "title" (text "My super API"), key "version" (text "0.0.0")]),
    key "tags" (braces [[.ident "internal"], [.ident "admin", parens [text "Super admin methods"]]]),
    key "servers" (bracesComma [[text "https://my.super.server.com/v1"]]),
    key "security_schemes" (bracesComma [
      [parens [.ident "http", text "bearerAuth"], .colon, bracesComma [key "scheme" (.ident "Bearer"),
        key "bearer_format" (text "JWT")]]]),
    key "paths" (braces [
      [parens [text "hello", .slash, text "world", .slash, braces [key "paramTest" (.ident "String")]], .colon, braces [
        key "summary" (text "Some test group of requests"),
        key "description" (text "Another test description"),
        key "parameters" (bracesComma [
          [parens [.ident "header", text "x-request-id"], .colon, bracesComma [key "description" (text "Test"),
            key "required" (.lit (.bool true))]]]),
        key "GET" (braces [
          key "tags" (braces [[.ident "internal"]]),
          key "summary" (text "Small summary"),
          key "description" (text "Small description"),
          key "deprecated" (.lit (.bool true)),
          key "parameters" (braces [[parens [.ident "query", .ident "someParam", .colon, .ident "u32"], .colon,
            bracesComma [key "description" (text "Test")]]]),
          [.lit (.num 200), .colon, .ident "String"],
          [.lit (.num 418), parens [text "Optional response description"], .colon, .ident "String"]]),
        key "POST" (braces [
          key "tags" (braces [[.ident "admin"]]),
          key "security" (braces [[text "bearerAuth"]]),
          key "body" (bracesComma [key "description" (text "Some interesting description"),
            key "schema" (.path genericPath), key "required" (.lit (.bool true))]),
          [.lit (.num 200), .colon, .ident "SuperResponse"],
          key "callbacks" (braces [key "callbackUrl" (braces [[parens [text "callbackUrl"], .colon, braces [
            key "POST" (bracesComma [[.lit (.num 200), .colon, .path vecString]])]]])])])]]])]

theorem readme_reads : readApi readmeScope readmeTokens = some readme := by
  simp [readmeTokens, readme, key, braces, bracesComma, parens, text, vecString, genericPath, List.intercalate, List.intersperse,
    readApi, readSections, readSection, orComma, readInfoProps, readInfoProp, TT.display, TT.text, TT.flag, TT.value, TT.type,
    Val.display, Val.text, Val.flag, LitTok.val, readmeScope, readTags, readServers, readServer, readSchemes, readScheme, munch,
    readHttpProp, readPaths, readPathList, readUrl, readSeg, readItemProps, readItemProp, readOpProps, readOpProp,
    readSecurity, readSecurityItem, readRoles, readBody, readBodyProp, readResponse, readCallbacks, readIdents, readParams, readParam,
    readParamProp, methodOf]

end Verif.Suite
