import Verif.Check.Suite
import Verif.Model.Syntax
/-!
# The inputs of the macros in the test suite, as tokens

The rules of the macros read the inputs of the test suite as the descriptions checked in `Check/Suite`.
-/

namespace Verif.Suite

def key (k : String) (v : TT) : List TT := [.ident k, .colon, v]
def braces (items : List (List TT)) : TT := .group .brace ([TT.comma].intercalate items)
/-- With a comma after the last item. -/
def bracesComma (items : List (List TT)) : TT := .group .brace (items.flatMap (· ++ [.comma]))
def parens (ts : List TT) : TT := .group .paren ts
def text (s : String) : TT := .lit (.str s)
def types (p : List String) : TT := .path ⟨false, p.map fun x => (x, [])⟩
def vecString : TypePath := ⟨false, [("std", []), ("vec", []), ("Vec", [⟨false, [("String", [])]⟩])]⟩

/-- The local names of `describe_api_macro` (api.rs 31-41). -/
def apiScope : Scope where
  val x :=
    if x = "title_as_variable" then some (.str "My super API")
    else if x = "server_as_variable" then some (.str "http://test/123")
    else if x = "test_auth" then some (.scheme (.apiKey ⟨.query, "X-MY-SUPER-API", none⟩))
    else none
  ty
    | ⟨false, [("std", []), ("vec", []), ("Vec", [⟨false, [("String", [])]⟩])]⟩ => some (.seq .vec str)
    | ⟨false, [("uuid", []), ("Uuid", [])]⟩ => some .uuid
    | ⟨false, [("request", []), ("InModule", [])]⟩ => some (.named 1)
    | ⟨false, [("SimpleEnum", [])]⟩ => some (.named 0)
    | ⟨false, [("String", [])]⟩ => some str
    | ⟨false, [("i32", [])]⟩ => some (.prim .i32)
    | ⟨false, [("u32", [])]⟩ => some (.prim .u32)
    | _ => none

/-- api.rs 42-131. -/
def apiTokens : List TT :=
  [TT.comma].intercalate [
    key "info" (bracesComma [key "title" (.ident "title_as_variable"), key "version" (text "0.0.0")]),
    key "tags" (braces [[.ident "internal"], [.ident "admin", parens [text "Super admin methods"]]]),
    key "servers" (braces [[text "https://my.super.server.com/v1"], [.ident "server_as_variable"]]),
    key "security_schemes" (braces [
      [parens [.ident "http", text "bearerAuth"], .colon, bracesComma [key "scheme" (.ident "Bearer"),
        key "bearer_format" (text "JWT"), key "description" (text "Test description")]],
      [parens [.ident "http", text "basicAuth"], .colon, braces [key "scheme" (.ident "Basic"),
        key "description" (text "Another test description")]],
      [parens [.ident "apiKey", text "ApiKeyAuth"], .colon, braces [key "parameter_in" (.ident "Query"),
        key "name" (text "X-API-KEY"), key "description" (text "And another test description")]]]),
    key "paths" (braces [
      [parens [text "test", .slash, types ["uuid", "Uuid"]], .colon, braces [
        key "POST" (braces [
          key "operationId" (text "test"),
          key "security" (braces [[.ident "test_auth", .andAnd, text "basicAuth"]]),
          key "deprecated" (.lit (.bool true)),
          key "body" (types ["request", "InModule"]),
          [.lit (.num 200), .colon, .path vecString],
          key "callbacks" (braces [key "myCallback" (braces [[parens [text "callback_url"], .colon, braces [
            key "POST" (bracesComma [key "body" (types ["request", "InModule"]), [.lit (.num 200), .colon, .path vecString]])]]])])])]],
      [parens [text "hello", .slash, text "world", .slash, braces [key "paramTest" (.ident "String")]], .colon, braces [
        key "summary" (text "Some test group of requests"),
        key "description" (text "Another test description"),
        key "parameters" (braces [
          [parens [.ident "header", text "x-request-id"], .colon, bracesComma [key "description" (text "Test")]],
          [parens [.ident "query", .ident "test", .colon, .ident "i32"]],
          [parens [.ident "header", text "asd"]]]),
        key "GET" (braces [
          key "operationId" (text "testGet"),
          key "tags" (braces [[.ident "internal"]]),
          key "summary" (text "Small summary"),
          key "description" (text "Small description"),
          key "parameters" (bracesComma [[parens [.ident "query", .ident "someParam", .colon, .ident "u32"], .colon,
            braces [key "description" (text "Test"), key "deprecated" (.lit (.bool true))]]]),
          [.lit (.num 200), parens [text "Custom response desc"], .colon, .ident "String"]]),
        key "POST" (bracesComma [
          key "operationId" (text "testPost"),
          key "tags" (braces [[.ident "admin"]]),
          key "body" (braces [key "description" (text "Some interesting description"), key "schema" (.ident "String"),
            key "required" (.lit (.bool true))]),
          [.lit (.num 200), .colon, .ident "SimpleEnum"]]),
        key "DELETE" (bracesComma [[.lit (.num 200), .colon, .ident "None"]]),
        key "OPTIONS" (braces [[.lit (.num 200), .colon, parens []]])]]])]

theorem suite_reads : readApi apiScope apiTokens = some api := by
  simp [apiTokens, api, key, braces, bracesComma, parens, text, types, vecString, List.intercalate, List.intersperse, readApi, readSections,
    readSection, orComma, readInfoProps, readInfoProp, TT.display, TT.text, TT.flag, TT.value, TT.type, Val.display, Val.text, Val.flag,
    LitTok.val, apiScope, readTags, readServers, readServer, readSchemes, readScheme, munch, readHttpProp, readApiKeyProp,
    parameterInOf, readPaths, readPathList, readUrl, readSeg, readItemProps, readItemProp, readOpProps, readOpProp,
    readSecurity, readSecurityItem, readRoles, readBody, readBodyProp, readResponse, readCallbacks, readIdents, readParams, readParam,
    readParamProp, methodOf]

/-- `{key: value key: value ..}` -/
def fields (items : List (List TT)) : TT := .group .brace items.flatten
def typed (k : String) (v : TT) : List TT := [.ident k, .arrow, v]

def typeScope : Scope := ⟨fun x => if x = "sub" then some (.model (TypeDecl.string (some "Test") none none none).model) else none, fun _ => none⟩

/-- models.rs 648-670. -/
def typeTokens : List TT := typed "object" (fields [
  key "description" (text "Hello world"),
  key "properties" (fields [
    [.ident "id", .group .bracket [.ident "required"], .colon, parens (typed "link" (text "TransactionId"))],
    [.ident "test", .group .bracket [.ident "required"], .colon, parens (typed "object" (fields [
      key "properties" (fields [key "sub" (parens (typed "link" (text "TransactionId")))])]))],
    key "test_object" (parens (typed "string" (fields [key "format" (text "uuid"),
      key "variants" (.group .bracket [text "aaa", .comma, text "bbb"])]))),
    key "test_integer" (parens (typed "integer" (fields [key "format" (text "timestamp"), key "example" (text "1591956576404")]))),
    key "test_boolean" (parens (typed "boolean" (fields []))),
    key "test_array" (parens (typed "array" (fields [key "items" (parens (typed "string" (fields [])))]))),
    key "test_raw_model" (parens (typed "raw_model" (.ident "sub")))])])

theorem type_reads : readType typeScope typeTokens = some describedModel := by
  simp [typeTokens, describedModel, typed, fields, key, parens, text, readType, readRef, readPropDecls, readLeaf, optLit, readVariants,
    readLits, typeScope, Val.display, LitTok.val]

end Verif.Suite
