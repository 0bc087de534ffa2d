import Verif.Model.DeclarativeTypes

/-!
# A module out of the list of its sections

The specification (Wasm core 1.0, section 5.5) describes a module as a sequence of sections of which all but the custom ones come at most
once and in the order of their numbers; here is the module that such a list denotes.
-/

namespace Whasm.Decl

/-- The number of a section (section 5.5.2 of the specification). -/
def secId : Sec → Byte
  | .custom _ _ => 0
  | .types _ => 1
  | .imports _ => 2
  | .funcs _ => 3
  | .tables _ => 4
  | .mems _ => 5
  | .globals _ => 6
  | .exports _ => 7
  | .start _ => 8
  | .elems _ => 9
  | .code _ => 10
  | .data _ => 11

/-- The numbers of the sections other than the custom ones. -/
def ids (secs : List Sec) : List Byte := (secs.map secId).filter fun k => k ≠ 0

def typesOf (secs : List Sec) : List FuncTy := secs.flatMap fun | .types x => x | _ => []
def importsOf (secs : List Sec) : List Import := secs.flatMap fun | .imports x => x | _ => []
def funcsOf (secs : List Sec) : List Idx := secs.flatMap fun | .funcs x => x | _ => []
def tablesOf (secs : List Sec) : List Table := secs.flatMap fun | .tables x => x | _ => []
def memsOf (secs : List Sec) : List Mem := secs.flatMap fun | .mems x => x | _ => []
def globalsOf (secs : List Sec) : List Global := secs.flatMap fun | .globals x => x | _ => []
def exportsOf (secs : List Sec) : List Export := secs.flatMap fun | .exports x => x | _ => []
def startOf (secs : List Sec) : Option Start := secs.findSome? fun | .start x => some x | _ => none
def elemsOf (secs : List Sec) : List Elem := secs.flatMap fun | .elems x => x | _ => []
def codeOf (secs : List Sec) : List Body := secs.flatMap fun | .code x => x | _ => []
def dataOf (secs : List Sec) : List Data := secs.flatMap fun | .data x => x | _ => []

/-- The module a list of sections denotes: the function section gives the types of the bodies of the code section. -/
def assemble (secs : List Sec) : Module where
  types := typesOf secs
  imports := importsOf secs
  funcs := List.zipWith (fun ty c => { ty := ty, locals := c.locals, body := c.code }) (funcsOf secs) (codeOf secs)
  tables := tablesOf secs
  mems := memsOf secs
  globals := globalsOf secs
  exports := exportsOf secs
  start := startOf secs
  elem := elemsOf secs
  data := dataOf secs

end Whasm.Decl
