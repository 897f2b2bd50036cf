import Verif.Spec.Addr
import Verif.Spec.Split
/-
The routes of the kernel. There are several tables; the one that programs see in /proc/net/route is called "main".
-/
namespace Spec.Routes
open Wv (Byte str)
open Spec.Addr

/-- What tells routes apart. -/
structure Row where
  ifc : List Byte
  network : Addr
  mask : Addr
  gw : Addr
  metric : Int
  table : List Byte
  deriving DecidableEq

def mainTable : List Byte := str ['m', 'a', 'i', 'n']
def defaultTable : List Byte := str ['d', 'e', 'f', 'a', 'u', 'l', 't']

/-- How the library calls a route of the kernel: the main table is "default". -/
def seen (k : Row) : Row := if k.table = mainTable then { k with table := defaultTable } else k

/-- The kernel adds a route that it does not have. -/
def add (kernel : List Row) (k : Row) : List Row := if k ∈ kernel then kernel else kernel ++ [k]

/-- The kernel deletes a route. -/
def del (kernel : List Row) (k : Row) : List Row := kernel.filter (· ≠ k)

/-- The number that the four bytes of an address are in memory. -/
def memory (x : Addr) : Nat := x.a.toNat + 256 * (x.b.toNat + 256 * (x.c.toNat + 256 * x.d.toNat))

/-- The last value that was given for a key word. -/
def last (k : List Byte) (pairs : List (List Byte × List Byte)) : Option (List Byte) := (pairs.reverse.find? (·.1 = k)).map (·.2)

end Spec.Routes
