import Verif.Model.Decode
import Verif.Model.Encode
import Verif.Spec.View
import Verif.Spec.Places
import Verif.Proof.Varint
import Verif.Proof.SafeDecode
import Verif.Proof.ApiSafe
import Verif.Props.C46
import Verif.Proof.Depth
import Verif.Proof.Marshal
import Verif.Props.C10
import Verif.Props.C11
import Verif.Props.C13
import Verif.Props.C14
import Verif.Props.C16
import Verif.Props.C28
import Verif.Proof.SoundDecode
import Verif.Spec.Support
import Verif.Proof.Complete
import Verif.Proof.ApiDoc
import Verif.Proof.Fails
import Verif.Props.C15
import Verif.Props.C17
import Verif.Props.C18
import Verif.Props.C19
import Verif.Props.C45
import Verif.Proof.Round
import Verif.Proof.Unshared
import Verif.Props.C01
import Verif.Props.C26
import Verif.Proof.Tidy
import Verif.Props.C06
import Verif.Props.C08
import Verif.Props.C24
import Verif.Props.C24More
import Verif.Props.C29
import Verif.Props.C30
import Verif.Props.C43
import Verif.Props.C32
import Verif.Model.Merge
import Verif.Proof.MergeTag
import Verif.Proof.MergeRun
import Verif.Proof.MergeItem
import Verif.Spec.Movable
import Verif.Spec.Tokens
import Verif.Spec.Smooth
import Verif.Spec.Merged
import Verif.Proof.MergeG
import Verif.Proof.MergeTop
import Verif.Proof.MergeAll
import Verif.Proof.MergeSane
import Verif.Proof.MergeFlat
import Verif.Props.C35
import Verif.Props.C37
import Verif.Proof.MergeAccepts
import Verif.Proof.MergeOk
import Verif.Proof.EmitToks
import Verif.Props.C53
import Verif.Props.C54
import Verif.Model.Typed
import Verif.Spec.Typed
import Verif.Spec.Unshared
import Verif.Proof.TypedTags
import Verif.Proof.TypedGram
import Verif.Proof.TypedLeaf
import Verif.Proof.TypedFields
import Verif.Proof.TypedComp
import Verif.Proof.TypedApi
import Verif.Spec.Holds
import Verif.Proof.TypedRound
import Verif.Proof.TypedSafe
import Verif.Props.C42
import Verif.Props.C47
import Verif.Props.C49
import Verif.Proof.Shared
import Verif.Proof.Places
import Verif.Proof.PlacesC
import Verif.Proof.PlacesRun
import Verif.Proof.PlacesFound
import Verif.Props.C31
import Verif.Model.TypedMem
import Verif.Proof.MemTags
import Verif.Proof.MemSafe
import Verif.Props.C49Mem
import Verif.Spec.Graph
import Verif.Proof.MemPaths
import Verif.Proof.Layout
import Verif.Proof.LayLeaf
import Verif.Proof.LayDecode
import Verif.Proof.LayRun
import Verif.Proof.LayMain
import Verif.Props.C55
import Verif.Proof.Twin
import Verif.Proof.TwinDecode
import Verif.Proof.TwinEmit
import Verif.Proof.TwinEncode
import Verif.Props.C56
import Verif.Proof.TwinMem
import Verif.Props.C57
import Verif.Spec.Outside
import Verif.Proof.Fence
import Verif.Props.C58
import Verif.Proof.DepthMem
import Verif.Model.TypedCall
import Verif.Proof.CallMem
import Verif.Props.C28Typed
import Verif.Props.C59
import Verif.Props.C60
import Verif.Spec.Offsets
import Verif.Proof.HeadByte
import Verif.Proof.HeadByteMem
import Verif.Props.C61
import Verif.Props.C62
import Verif.Props.C63
import Verif.Proof.Sealed
import Verif.Props.C64
import Verif.Spec.Depicts
import Verif.Proof.SimBase
import Verif.Proof.SimMem
import Verif.Proof.SimSteps
import Verif.Proof.SimLoops
import Verif.Proof.SimDecode
import Verif.Props.C50Mem
import Verif.Props.C50Other
import Verif.Spec.Within
import Verif.Proof.Small
import Verif.Proof.Modest
import Verif.Proof.Spend
import Verif.Props.C65
import Verif.Spec.Writable
import Verif.Proof.Writable
import Verif.Props.C66
import Verif.Spec.CutShort
import Verif.Proof.MergeSafe
import Verif.Props.C68
import Verif.Spec.Portable
import Verif.Proof.MergeAgain
import Verif.Proof.MergeSteps
import Verif.Props.C70
import Verif.Model.Registry
import Verif.Spec.Registered
import Verif.Props.C71
import Verif.Props.C72
import Verif.Spec.Again
import Verif.Proof.Again
import Verif.Props.C73
import Verif.Proof.Usual
import Verif.Props.C74
import Verif.Model.Fuzz
import Verif.Props.C75
import Verif.Spec.Moved
import Verif.Proof.Moved
import Verif.Props.C76
import Verif.Spec.Names
import Verif.Proof.Shorter
import Verif.Props.C77
import Verif.Props.C31Typed
import Verif.Spec.Alike
import Verif.Props.C78
import Verif.Props.C79
import Verif.Props.C80
import Verif.Spec.Kinds
import Verif.Props.C81
