import Verif.Model.Disk
/-! Directories, said without looking anything up step by step. -/
namespace Verif.Spec

/-- The root is a directory, and what is there is in a directory that is there. -/
structure Tree (d : Disk) : Prop where
  root : ∃ s w, d.at_ [] = some (.dir s w)
  parent : ∀ p n e, d.at_ (p ++ [n]) = some e → ∃ s w, d.at_ p = some (.dir s w)

/-- The directories on the way to `p`, and `p` itself, can be searched. -/
def Open (d : Disk) (p : DirPath) : Prop := ∀ q, q <+: p → ∃ w, d.at_ q = some (.dir true w)

/-- `e` is at `p`, and the way there can be gone. -/
structure There (d : Disk) (p : DirPath) (e : Inode) : Prop where
  is : d.at_ p = some e
  way : ∀ q, q <+: p → q ≠ p → ∃ w, d.at_ q = some (.dir true w)
  names : ∀ n ∈ p, d.refused n = false

/-- `p` is not there, but can be made: the last of its directories that is there may be
written to. -/
def Makeable (d : Disk) (p : DirPath) : Prop :=
  (∀ n ∈ p, d.refused n = false) ∧
    ∃ q n r, p = q ++ n :: r ∧ Open d q ∧ d.at_ q = some (.dir true true) ∧ d.at_ (q ++ [n]) = none

/-- The disk with the missing directories on the way to `p`, and `p` itself. -/
def filled (d : Disk) (p : DirPath) : Disk :=
  { d with at_ := fun q => if q.isPrefixOf p && (d.at_ q).isNone then some (.dir true true) else d.at_ q }

/-- Files can be made in the directory `p`. -/
def Usable (d : Disk) (p : DirPath) : Prop := There d p (.dir true true)

end Verif.Spec
