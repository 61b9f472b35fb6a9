import Verif.Model.Eval
/-!
# A sample program used in the non-vacuity examples
-/

namespace Verif.Sample

def oracle : Oracle := ⟨Char.isUpper, fun _ => true, fun _ => true⟩

/-- A field without attributes. -/
def field (name : String) (ty : Ty) : Field Ty :=
  ⟨{ name := ⟨name, name, false⟩, skipSerializing := false, flatten := false, optional := false,
     description := none, format := none, ex := none, inline := false, nullable := false,
     explicitModelType := none }, ty⟩

def containerAttrs (name : String) : ContainerAttrs :=
  { name := ⟨name, name, false⟩, renameRule := .none, transparent := false, tagType := .external,
    hasFlatten := false, hasRepr := false, description := none, format := none, ex := none, inline := false,
    nullable := false, explicitModelType := none, modelType := .object }

def variantAttrs (name : String) : VariantAttrs :=
  { name := ⟨name, name, false⟩, renameRule := .none, skipSerializing := false, description := none,
    format := none, ex := none, inline := false, explicitModelType := none }

/-- `struct name { fields }` without attributes. -/
def struct (name : String) (fields : List (Field Ty)) : Container Ty :=
  ⟨name, containerAttrs name, .struct .struct fields⟩

/-- `struct name(ty);` -/
def newtype (name : String) (f : Field Ty) : Container Ty :=
  ⟨name, { containerAttrs name with modelType := .newType }, .struct .newType [f]⟩

/-- Derived types: 0 `User { id: u32, pet: Option<Pet>, tags: Vec<String> }`, 1 `Pet { name: String }`,
2 `Recursive { value: u32, next: Option<Box<Recursive>> }`, 3 `Owner { user: User, pets: Vec<Pet> }`. -/
def decl : Nat → Container Ty
  | 0 => struct "User" [field "id" (.prim .u32), field "pet" (.option (.named 1)),
      field "tags" (.seq .vec (.prim .string))]
  | 2 => struct "Recursive" [field "value" (.prim .u32), field "next" (.option (.wrap .box (.named 2)))]
  | 3 => struct "Owner" [field "user" (.named 0), field "pets" (.seq .vec (.named 1))]
  | _ => struct "Pet" [field "name" (.prim .string)]

def env : Env := ⟨decl, fun s => s⟩

/-- The derive macro produces the sample declaration from `struct Pet { name: String }`. -/
example : containerFromAst oracle (⟨"Pet", [], .struct (.named [⟨some "name", [], .prim .string⟩])⟩ : DeriveInput Ty)
    = some (some (decl 1), []) := rfl

def str : Model := ⟨none, .single ⟨false, .string none none none⟩⟩

def petModel : Model := ⟨none, .single ⟨false, .object ⟨[("name", .inline str)], none, ["name"]⟩⟩⟩

end Verif.Sample
