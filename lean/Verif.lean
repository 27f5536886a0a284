import Verif.Props.Codec
import Verif.Props.Memory
import Verif.Props.Hash
import Verif.Props.Mac
import Verif.Props.Kdf
import Verif.Props.Cipher
import Verif.Props.Simd
import Verif.Props.ShaNi
import Verif.Props.Aead
import Verif.Model.Mixed
import Verif.Proof.Mixed
import Verif.Props.Mixed
import Verif.Model.Dispatch
import Verif.Spec.Dispatch
import Verif.Props.Dispatch
import Verif.Model.Residue
import Verif.Proof.Destroy
import Verif.Proof.Residue
import Verif.Props.Destroy
import Verif.Proof.CodecRoom
import Verif.Proof.CipherRoom
import Verif.Props.Room
import Verif.Model.Width
import Verif.Props.Width
import Verif.Model.X64
import Verif.Spec.Abi
import Verif.Proof.X64Mem
import Verif.Proof.X64Cong
import Verif.Proof.X64Sim
import Verif.Proof.X64Step
import Verif.Proof.X64Run
import Verif.Proof.X64Frame
import Verif.Proof.X64Head
import Verif.Proof.X64ChaCha
import Verif.Proof.X64Call
import Verif.Proof.X64Sha
import Verif.Proof.X64ShaCall
import Verif.Proof.X64Cpuid
import Verif.Props.Abi
import Verif.Model.App
import Verif.Spec.App
import Verif.Proof.App
import Verif.Proof.AppArgs
import Verif.Proof.AppRun
import Verif.Proof.AppEnds
import Verif.Proof.AppUse
import Verif.Proof.AppSame
import Verif.Props.App
import Verif.Model.AppJson
import Verif.Spec.Json
import Verif.Spec.AppJson
import Verif.Proof.AppJson
import Verif.Proof.AppInv
import Verif.Props.AppJson
import Verif.Proof.AppDoc
import Verif.Spec.Leak
import Verif.Proof.Leak
import Verif.Props.Leak
import Verif.Spec.AeadText
import Verif.Proof.MixedAead
import Verif.Props.MixedAead
import Verif.Spec.KdfLive
import Verif.Proof.KdfLive
import Verif.Props.KdfLive
import Verif.Spec.KdfLong
import Verif.Proof.Pbkdf2Wrap
import Verif.Props.KdfLong
import Verif.Spec.Copies
import Verif.Model.Copies
import Verif.Proof.Copies
import Verif.Proof.CopiesHeap
import Verif.Proof.CopiesKdf
import Verif.Proof.CopiesInit
import Verif.Proof.CopiesFork
import Verif.Props.Copies
import Verif.Model.SelfTest
import Verif.Spec.SelfTest
import Verif.Proof.SelfTest
import Verif.Props.SelfTest
import Verif.Model.Alloc
import Verif.Spec.Alloc
import Verif.Proof.Alloc
import Verif.Props.Alloc
import Verif.Proof.Prime1305
import Verif.Proof.Forgery
import Verif.Proof.ForgeryCount
import Verif.Spec.Forgery
import Verif.Props.Forgery
import Verif.Model.InPlace
import Verif.Spec.InPlace
import Verif.Proof.InPlace
import Verif.Props.InPlace
import Verif.Model.InPlaceKdf
import Verif.Spec.InPlaceKdf
import Verif.Proof.InPlaceKdf
import Verif.Props.InPlaceKdf
import Verif.Spec.Collision
import Verif.Proof.Collision
import Verif.Props.Collision
import Verif.Model.Timed.Base
import Verif.Model.Timed.Sha
import Verif.Model.Timed.Mac
import Verif.Model.Timed.Kdf
import Verif.Model.Timed.ChaCha
import Verif.Model.Timed.Aead
import Verif.Model.Timed.Calls
import Verif.Spec.Timed
import Verif.Proof.Timed.Base
import Verif.Proof.Timed.Sha
import Verif.Proof.Timed.Mac
import Verif.Proof.Timed.Kdf
import Verif.Proof.Timed.ChaCha
import Verif.Proof.Timed.Aead
import Verif.Proof.Timed.Calls
import Verif.Props.Timed
import Verif.Props.AppVar
import Verif.Spec.Resume
import Verif.Proof.Resume
import Verif.Proof.ResumeUse
import Verif.Proof.ResumeSpec
import Verif.Proof.ResumeZero
import Verif.Props.Resume
import Verif.Proof.PolyResume
import Verif.Proof.PolyResumeUse
import Verif.Proof.PolyCore
import Verif.Proof.PolyReveal
import Verif.Props.ResumePoly
import Verif.Proof.AeadResume
import Verif.Props.ResumeAead
