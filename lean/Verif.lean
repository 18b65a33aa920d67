import Verif.Props.List
import Verif.Props.Bits
import Verif.Props.Hash
import Verif.Props.HashFun
import Verif.Props.Array
import Verif.Props.Alloc
import Verif.Props.AllocFalse
import Verif.Props.Tree
import Verif.Props.Trie
import Verif.Props.TrieInp
import Verif.Props.ForeachArg
import Verif.Props.Limits
import Verif.Props.SortCost
import Verif.Props.TreeCost
import Verif.Props.ArrayFull
import Verif.Props.HashUsage
import Verif.Props.HashCost
import Verif.Props.HashSize
import Verif.Props.HashBucket
import Verif.Props.TrieFlat
import Verif.Props.TrieCost
import Verif.Props.World
import Verif.Props.Index
import Verif.Props.Free
import Verif.Props.TrieOrder
import Verif.Props.Tables
import Verif.Props.IntHash
import Verif.Props.Chain
import Verif.Props.TrieSeparate
import Verif.Props.Variants
import Verif.Props.NearHash
import Verif.Props.HashAvg
import Verif.Props.HashFlat
import Verif.Props.CFlat
import Verif.Props.CHash
import Verif.Props.CTree
import Verif.Props.CArray
import Verif.Props.CAlloc
import Verif.Props.CListText
