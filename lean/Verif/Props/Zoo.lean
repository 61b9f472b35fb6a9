import Verif.Props.DeriveMore
import Verif.Spec.Deps
/-!
# A sample program with one type of every shape, and how to list the types it reaches
-/

namespace Verif

mutual
/-- Decides equality of types. -/
def Ty.same : Ty → Ty → Bool
  | .prim p, .prim q => decide (p = q)
  | .wrap w t, .wrap w' t' => decide (w = w') && Ty.same t t'
  | .option t, .option t' => Ty.same t t'
  | .tuple ts, .tuple ts' => Ty.sameList ts ts'
  | .seq k t, .seq k' t' => decide (k = k') && Ty.same t t'
  | .dict k t, .dict k' t' => decide (k = k') && Ty.same t t'
  | .unit, .unit | .uuid, .uuid | .naiveDateTime, .naiveDateTime | .dateTime, .dateTime | .naiveDate, .naiveDate => true
  | .named i, .named j => decide (i = j)
  | _, _ => false
def Ty.sameList : List Ty → List Ty → Bool
  | [], [] => true
  | t :: ts, t' :: ts' => Ty.same t t' && Ty.sameList ts ts'
  | _, _ => false
end

mutual
theorem Ty.eq_of_same : ∀ (a b : Ty), Ty.same a b = true → a = b
  | .prim p, b, h => by cases b <;> simp_all [Ty.same]
  | .wrap w t, b, h => by
    cases b <;> simp [Ty.same] at h
    rw [h.1, Ty.eq_of_same t _ h.2]
  | .option t, b, h => by
    cases b <;> simp [Ty.same] at h
    rw [Ty.eq_of_same t _ h]
  | .tuple ts, b, h => by
    cases b <;> simp [Ty.same] at h
    rw [Ty.eq_of_sameList ts _ h]
  | .seq k t, b, h => by
    cases b <;> simp [Ty.same] at h
    rw [h.1, Ty.eq_of_same t _ h.2]
  | .dict k t, b, h => by
    cases b <;> simp [Ty.same] at h
    rw [h.1, Ty.eq_of_same t _ h.2]
  | .unit, b, h => by cases b <;> simp_all [Ty.same]
  | .uuid, b, h => by cases b <;> simp_all [Ty.same]
  | .naiveDateTime, b, h => by cases b <;> simp_all [Ty.same]
  | .dateTime, b, h => by cases b <;> simp_all [Ty.same]
  | .naiveDate, b, h => by cases b <;> simp_all [Ty.same]
  | .named i, b, h => by cases b <;> simp_all [Ty.same]
theorem Ty.eq_of_sameList : ∀ (as bs : List Ty), Ty.sameList as bs = true → as = bs
  | [], bs, h => by cases bs <;> simp_all [Ty.sameList]
  | a :: as, bs, h => by
    cases bs with
    | nil => simp [Ty.sameList] at h
    | cons b bs =>
      simp [Ty.sameList] at h
      rw [Ty.eq_of_same a b h.1, Ty.eq_of_sameList as bs h.2]
end

def Ty.isIn (l : List Ty) (t : Ty) : Bool := l.any fun u => Ty.same t u

theorem Ty.mem_of_isIn {l : List Ty} {t : Ty} (h : Ty.isIn l t = true) : t ∈ l := by
  obtain ⟨u, hu, he⟩ := List.any_eq_true.1 h
  rw [Ty.eq_of_same t u he]; exact hu

/-- The roots are in the list, and so is what the types of the list ask for. -/
def closedList (env : Env) (roots : List (Ty × Bool)) (l : List Ty) : Bool :=
  (roots.all fun p => Ty.isIn l p.1) && l.all fun t =>
    match schemaExpr env t with
    | none => true
    | some e => e.asked.all fun p => Ty.isIn l p.1

theorem Reached.mem_closed {env : Env} {roots : List (Ty × Bool)} {l : List Ty} (hc : closedList env roots l = true)
    {t : Ty} (h : Reached env roots t) : t ∈ l := by
  simp only [closedList, Bool.and_eq_true] at hc
  induction h with
  | root h => exact Ty.mem_of_isIn (List.all_eq_true.1 hc.1 _ h)
  | step _ ha ih =>
    obtain ⟨e, he, hm⟩ := ha
    have := List.all_eq_true.1 hc.2 _ ih
    rw [he] at this
    exact Ty.mem_of_isIn (List.all_eq_true.1 this _ hm)

theorem Linked.mem_closed {env : Env} {roots : List (Ty × Bool)} {l : List Ty} (hc : closedList env roots l = true)
    {t : Ty} (h : Linked env roots t) : t ∈ l := by
  rcases h with h | ⟨u, hu, ha⟩
  · exact (Reached.root h).mem_closed hc
  · exact (Reached.step hu ha).mem_closed hc

namespace Sample

/-- `enum Color { Red, #[serde(rename = "GREEN")] Green }` -/
def colorInput : DeriveInput Ty := ⟨"Color", [], .enum [var "Red", var "Green" .unit [attr "serde" [nv "rename" "GREEN"]]]⟩
def color : Container Ty := container "Color" (fun a => { a with modelType := .newType }) (.enum [
  variantAs "Red" "Red" .unit [], variantAs "Green" "GREEN" .unit [] (fun v => { v with name := ⟨"Green", "GREEN", true⟩ })])

/-- `enum Shape { Circle(f64), Rect { w: f64, h: f64 }, Pair(u8, String) }` -/
def shapeInput : DeriveInput Ty := ⟨"Shape", [], .enum [
  var "Circle" (.unnamed [tfld (.prim .f64)]), var "Rect" (.named [fld "w" (.prim .f64), fld "h" (.prim .f64)]),
  var "Pair" (.unnamed [tfld (.prim .u8), tfld (.prim .string)])]⟩
def shape : Container Ty := container "Shape" (fun a => { a with modelType := .dictionary }) (.enum [
  variantAs "Circle" "Circle" .newType [field "0" (.prim .f64)],
  variantAs "Rect" "Rect" .struct [field "w" (.prim .f64), field "h" (.prim .f64)],
  variantAs "Pair" "Pair" .tuple [field "0" (.prim .u8), field "1" (.prim .string)]])

/-- `#[serde(tag = "kind")] enum Event { Created { id: u32 }, Moved(Point) }` -/
def eventInput : DeriveInput Ty := ⟨"Event", [attr "serde" [nv "tag" "kind"]], .enum [
  var "Created" (.named [fld "id" (.prim .u32)]), var "Moved" (.unnamed [tfld (.named 6)])]⟩
def event : Container Ty := container "Event" (fun a => { a with tagType := .internal "kind", modelType := .oneOf }) (.enum [
  variantAs "Created" "Created" .struct [field "id" (.prim .u32)], variantAs "Moved" "Moved" .newType [field "0" (.named 6)]])

/-- `#[serde(tag = "t", content = "c")] enum Message { Text(String), Both(u32, Color) }` -/
def messageInput : DeriveInput Ty := ⟨"Message", [attr "serde" [nv "tag" "t", nv "content" "c"]], .enum [
  var "Text" (.unnamed [tfld (.prim .string)]), var "Both" (.unnamed [tfld (.prim .u32), tfld (.named 0)])]⟩
def message : Container Ty := container "Message" (fun a => { a with tagType := .adjacent "t" "c", modelType := .object }) (.enum [
  variantAs "Text" "Text" .newType [field "0" (.prim .string)],
  variantAs "Both" "Both" .tuple [field "0" (.prim .u32), field "1" (.named 0)]])

/-- `#[serde(untagged)] enum Either { Number(u32), Point(Point) }` -/
def eitherInput : DeriveInput Ty := ⟨"Either", [attr "serde" [word "untagged"]], .enum [
  var "Number" (.unnamed [tfld (.prim .u32)]), var "Point" (.unnamed [tfld (.named 6)])]⟩
def eitherC : Container Ty := container "Either" (fun a => { a with tagType := .none, modelType := .oneOf }) (.enum [
  variantAs "Number" "Number" .newType [field "0" (.prim .u32)], variantAs "Point" "Point" .newType [field "0" (.named 6)]])

/-- `#[repr(u8)] enum Code { Ok = 0, Failed = 1 }`, serialized by `serde_repr` -/
def codeInput : DeriveInput Ty := ⟨"Code", [attr "repr" [word "u8"]], .enum [varD "Ok" "0", varD "Failed" "1"]⟩
def code : Container Ty := container "Code" (fun a => { a with hasRepr := true, modelType := .newType }) (.enum [
  variantAs "Ok" "Ok" .unit [] id (some "0"), variantAs "Failed" "Failed" .unit [] id (some "1")])

/-- `struct Point { x: i32, y: i32 }` -/
def pointInput : DeriveInput Ty := ⟨"Point", [], .struct (.named [fld "x" (.prim .i32), fld "y" (.prim .i32)])⟩
def point : Container Ty := struct "Point" [field "x" (.prim .i32), field "y" (.prim .i32)]

/-- `struct Id(u64);` -/
def idInput : DeriveInput Ty := ⟨"Id", [], .struct (.unnamed [tfld (.prim .u64)])⟩
def idC : Container Ty := newtype "Id" (field "0" (.prim .u64))

/-- `struct Pair(u32, String);` -/
def pairInput : DeriveInput Ty := ⟨"Pair", [], .struct (.unnamed [tfld (.prim .u32), tfld (.prim .string)])⟩
def pair : Container Ty := container "Pair" (fun a => { a with modelType := .newType }) (.struct .tuple [field "0" (.prim .u32), field "1" (.prim .string)])

/-- `struct Zoo { color: Color, shapes: Vec<Shape>, event: Event, messages: HashMap<String, Message>, either: Either,
code: Code, at: Option<Point>, id: Id, pair: Box<Pair> }` -/
def zooInput : DeriveInput Ty := ⟨"Zoo", [], .struct (.named [fld "color" (.named 0), fld "shapes" (.seq .vec (.named 1)),
  fld "event" (.named 2), fld "messages" (.dict .hashMap (.named 3)), fld "either" (.named 4), fld "code" (.named 5),
  fld "at" (.option (.named 6)), fld "id" (.named 7), fld "pair" (.wrap .box (.named 8))])⟩
def zooC : Container Ty := struct "Zoo" [field "color" (.named 0), field "shapes" (.seq .vec (.named 1)),
  field "event" (.named 2), field "messages" (.dict .hashMap (.named 3)), field "either" (.named 4), field "code" (.named 5),
  field "at" (.option (.named 6)), field "id" (.named 7), field "pair" (.wrap .box (.named 8))]

/-- Types 0 to 8 and `Zoo`. -/
def zoo : Env := ⟨fun
  | 0 => color | 1 => shape | 2 => event | 3 => message | 4 => eitherC | 5 => code | 6 => point | 7 => idC | 8 => pair
  | _ => zooC, id⟩

theorem zoo_derived : ∀ i, ∃ o input, Derived o zoo i input
  | 0 => ⟨oracle, colorInput, _, rfl⟩
  | 1 => ⟨oracle, shapeInput, _, rfl⟩
  | 2 => ⟨oracle, eventInput, _, rfl⟩
  | 3 => ⟨oracle, messageInput, _, rfl⟩
  | 4 => ⟨oracle, eitherInput, _, rfl⟩
  | 5 => ⟨oracle, codeInput, _, rfl⟩
  | 6 => ⟨oracle, pointInput, _, rfl⟩
  | 7 => ⟨oracle, idInput, _, rfl⟩
  | 8 => ⟨oracle, pairInput, _, rfl⟩
  | _ + 9 => ⟨oracle, zooInput, _, rfl⟩

def zooCalls : List Call := [.mention (.named 9) false {}]

def zooTypes : List Ty := [.named 9, .named 0, .named 1, .named 2, .named 3, .named 4, .named 5, .named 6, .named 7, .named 8,
  .seq .vec (.named 1), .dict .hashMap (.named 3), .option (.named 6), .wrap .box (.named 8),
  .prim .f64, .prim .u8, .prim .string, .prim .u32, .prim .i32, .prim .u64]

theorem zoo_closed : closedList zoo (rootsOf zooCalls) zooTypes = true := by decide +kernel

theorem zoo_returns : ∃ rs cx, CallsReturn zoo Components.empty zooCalls rs cx ∧
    BMap.keys cx.schemas = ["Code", "Color", "Either", "Event", "Id", "Message", "Pair", "Point", "Shape", "Zoo"] :=
  ⟨_, _, .mention ⟨10, rfl⟩ (.nil _), rfl⟩

end Sample

end Verif
