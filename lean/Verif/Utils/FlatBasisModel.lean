/-!
Model of ikarus/utils/flatprebasis.hh and basis.hh: the basis with flat index merging strategies.

A pre basis is its tree.  The multi indices of its dofs are those of dune-functions (powerbasis.hh, compositebasis.hh),
listed in a fixed order of the dofs: child by child.  The dofs of a leaf are numbered `0, 1, ...`.
-/

namespace Ikarus.FlatBasis

/-- The index merging strategies of dune-functions (basistags.hh). -/
inductive IMS where
  | flatLexicographic
  | flatInterleaved
  | blockedLexicographic
  | blockedInterleaved
  deriving DecidableEq, Repr

/-- The strategies a composite basis has: those called lexicographic. -/
inductive LexIMS where
  | flat
  | blocked
  deriving DecidableEq, Repr

/-- A pre basis: `PowerPreBasis<IMS, SPB, C>`, `CompositePreBasis<IMS, SPB...>` or any other with `n` dofs. -/
inductive PreBasis where
  | leaf (n : Nat)
  | power (ims : IMS) (sub : PreBasis) (C : Nat)
  | composite (ims : LexIMS) (subs : List PreBasis)

/-- A multi index. -/
abbrev MultiIndex := List Nat

/-- `multiIndex[0] += k`. -/
def headAdd (k : Nat) : MultiIndex → MultiIndex
  | [] => []
  | i :: is => (i + k) :: is

/-- `multiIndex[0] *= c`. -/
def headMul (c : Nat) : MultiIndex → MultiIndex
  | [] => []
  | i :: is => (i * c) :: is

mutual
/-- `preBasis.size()`: the number of values of the first entry of the multi indices. -/
def size : PreBasis → Nat
  | .leaf n => n
  | .power .flatLexicographic sub C => C * size sub
  | .power .flatInterleaved sub C => C * size sub
  | .power .blockedLexicographic _ C => C
  | .power .blockedInterleaved sub _ => size sub
  | .composite .flat subs => sizeList subs
  | .composite .blocked subs => subs.length
def sizeList : List PreBasis → Nat
  | [] => 0
  | c :: cs => size c + sizeList cs
end

mutual
/-- The multi indices of all dofs, `PowerPreBasis::indicesImpl` and `CompositePreBasis::indicesImpl` of dune-functions
without the restriction to one element. -/
def indices : PreBasis → List MultiIndex
  | .leaf n => (List.range n).map fun i => [i]
  | .power .flatLexicographic sub C =>
    (List.range C).flatMap fun c => (indices sub).map (headAdd (c * size sub))
  | .power .flatInterleaved sub C =>
    (List.range C).flatMap fun c => (indices sub).map fun a => headAdd c (headMul C a)
  | .power .blockedLexicographic sub C => (List.range C).flatMap fun c => (indices sub).map fun a => c :: a
  | .power .blockedInterleaved sub C => (List.range C).flatMap fun c => (indices sub).map fun a => a ++ [c]
  | .composite .flat subs => indicesFlat subs 0
  | .composite .blocked subs => indicesBlocked subs 0
/-- The first entry is shifted by the sizes of the children before. -/
def indicesFlat : List PreBasis → Nat → List MultiIndex
  | [], _ => []
  | c :: cs, offset => (indices c).map (headAdd offset) ++ indicesFlat cs (offset + size c)
/-- The number of the child is put in front. -/
def indicesBlocked : List PreBasis → Nat → List MultiIndex
  | [], _ => []
  | c :: cs, k => (indices c).map (fun a => k :: a) ++ indicesBlocked cs (k + 1)
end

/-- `FlatIndexMergingStrategy`, flatprebasis.hh:59-77. -/
def flatIMS : IMS → IMS
  | .blockedInterleaved => .flatInterleaved
  | .blockedLexicographic => .flatLexicographic
  | ims => ims

/-- `FlatIndexMergingStrategy` for the strategies of a composite basis, flatprebasis.hh:59-77. -/
def flatLexIMS : LexIMS → LexIMS
  | .blocked => .flat
  | .flat => .flat

mutual
/-- `flatPreBasis`, flatprebasis.hh:37-52 (any other pre basis is left as it is), 80-95 (composite), 98-108 (power). -/
def flatPreBasis : PreBasis → PreBasis
  | .leaf n => .leaf n
  | .power ims sub C => .power (flatIMS ims) (flatPreBasis sub) C
  | .composite ims subs => .composite (flatLexIMS ims) (flatPreBasisList subs)
/-- The pack expansion, flatprebasis.hh:93. -/
def flatPreBasisList : List PreBasis → List PreBasis
  | [] => []
  | c :: cs => flatPreBasis c :: flatPreBasisList cs
end

/-- `BasisHandler`, basis.hh:46-48 with the accessors `untouched()` and `flat()`, 69 and 76. -/
structure BasisHandler where
  untouched : PreBasis
  flat : PreBasis

/-- `makeBasis`, basis.hh:109-112 and 123-125. -/
def makeBasis (pb : PreBasis) : BasisHandler := ⟨pb, flatPreBasis pb⟩

end Ikarus.FlatBasis
