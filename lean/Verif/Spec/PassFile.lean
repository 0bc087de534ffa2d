import Verif.Spec.Pass

/-!
# A file in one pass

What a reader sees that never builds the tree of a body: the declarations of the module, and the code of each body as a sequence of opcodes, which the algorithm of `Spec/Pass.lean` checks while they are read.
All declarations that the code can refer to come before the code section (5.5.15).
-/

namespace Whasm.Spec

/-- Lists of the same length, related element by element. -/
inductive Related {α β : Type} (Q : α → β → Prop) : List α → List β → Prop
  | nil : Related Q [] []
  | cons {x : α} {y : β} {xs : List α} {ys : List β} : Q x y → Related Q xs ys → Related Q (x :: xs) (y :: ys)

end Whasm.Spec

namespace Whasm.Spec.Pass

variable (D : Dialect)

/-- Locals and code of a function (5.5.13), the code in sequence. -/
inductive GCode : List Byte → List Val × List Op → Prop
  | mk {b1 b2 : List Byte} {runs : List (Nat × Val)} {ops : List Op} : GVec D (GLocals D) b1 runs →
      D.locals (expand runs).length → GSeq (GOp D) b2 ops → GCode (b1 ++ b2) (expand runs, ops)

/-- Function and code sections: the functions without their bodies, and the code of the bodies in the same order. -/
inductive GCodes (tys : List Idx) : List Byte → List Func → List (List Op) → Prop
  | paired {b : List Byte} {codes : List (List Val × List Op)} : GVecSection D 0x0A (GSized D (GCode D)) b codes → codes.length = tys.length →
      GCodes tys b (List.zipWith (fun ty c => { ty := ty, locals := c.1, body := [] }) tys codes) (codes.map (·.2))
  | missing : D.codeMayBeMissing → GCodes tys [] [] []

/-- A file (5.5.15): its declarations, as a module in which all bodies are empty, and the code. -/
inductive GFile : List Byte → Module → List (List Op) → Prop
  | mk {c0 c1 c2 c3 c4 c5 c6 c7 c8 c9 c10 c11 : List Byte}
      {b1 b2 b3 b4 b5 b6 b7 b8 b9 b10 b11 : List Byte} {tys : List Idx} {m : Module} {codes : List (List Op)} :
      GCustoms D c0 → GVecSection D 0x01 (GFuncTy D) b1 m.types →
      GCustoms D c1 → GVecSection D 0x02 (GImport D) b2 m.imports →
      GCustoms D c2 → GVecSection D 0x03 D.u32 b3 tys →
      GCustoms D c3 → GVecSection D 0x04 (GTable D) b4 m.tables →
      GCustoms D c4 → GVecSection D 0x05 (GMem D) b5 m.mems →
      GCustoms D c5 → GVecSection D 0x06 (GGlobal D) b6 m.globals →
      GCustoms D c6 → GVecSection D 0x07 (GExport D) b7 m.exports →
      GCustoms D c7 → GStartSection D b8 m.start →
      GCustoms D c8 → GVecSection D 0x09 (GElem D) b9 m.elem →
      GCustoms D c9 → GCodes D tys b10 m.funcs codes →
      GCustoms D c10 → GVecSection D 0x0B (GData D) b11 m.data →
      GCustoms D c11 →
      GFile ([0x00, 0x61, 0x73, 0x6D, 0x01, 0x00, 0x00, 0x00]
        ++ (c0 ++ (b1 ++ (c1 ++ (b2 ++ (c2 ++ (b3 ++ (c3 ++ (b4 ++ (c4 ++ (b5 ++ (c5 ++ (b6 ++ (c6 ++ (b7
        ++ (c7 ++ (b8 ++ (c8 ++ (b9 ++ (c9 ++ (b10 ++ (c10 ++ (b11 ++ c11))))))))))))))))))))))) m codes

/-- The verdict: the declarations are valid, and the algorithm accepts the code of each function. -/
structure Verdict (R : Rules) (m : Module) (codes : List (List Op)) : Prop where
  decls : DeclsOk R m
  codes : ∀ p ∈ m.funcs.zip codes, ∃ t, m.types[p.1.ty.toNat]? = some t ∧ Accepts (bodyEnv R m t p.1.locals) t.results p.2

/-- A file passes. -/
def FilePasses (R : Rules) (s : List Byte) : Prop := ∃ m codes, GFile D s m codes ∧ Verdict R m codes

end Whasm.Spec.Pass
