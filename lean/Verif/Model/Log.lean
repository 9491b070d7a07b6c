import Verif.Model.Mbase
/-
Logarithms of the x86 backend.
EX = /repo/dpm/detail/x86/exp.hpp, LG = x86/log.cpp, L2 = x86/log2.cpp, L10 = x86/log10.cpp, L1 = x86/log1p.cpp, LUT = x86/lut.hpp,
FC = /repo/dpm/detail/fconst.hpp, FT = /repo/dpm/detail/fconst.cpp, UT = x86/utility.hpp.
`fm` says whether DPM_HAS_FMA is defined.  `fill<Vi>(value)` of integers (UT:93-100, 231-238) takes the lane size from the type of
`value`, not from the element type: `fillV v (k : BitVec 32)` stands for an `int` argument, `fillV v (k : BitVec 64)` for a `long` one.
Literals are rounded to nearest (first to double, then to float, for `T{double literal}` with `T` = float).
-/
namespace Dpm.X86
open Dpm.Reg Dpm.Fp

/-! ### FC, FT: constants -/
/-- `logtab_f32` (FT:9-27): `invc`, `logc` in turn -/
def logtabS : List (BitVec 32) :=
  [0x3fb30f64, 0xbeabdfbc, 0x3fab8f6a, 0xbe95f785, 0x3fa4a9d0, 0xbe80f574, 0x3f9e4cae, 0xbe598ec5,
   0x3f9868c8, 0xbe32ba78, 0x3f92f114, 0xbe0d515e, 0x3f8dda52, 0xbdd273b6, 0x3f891ac8, 0xbd8cb9e3,
   0x3f84a9fa, 0xbd1297a2, 0x3f800000, 0x00000000, 0x3f730468, 0x3d552d53, 0x3f652599, 0x3de2f29d,
   0x3f5901b3, 0x3e29372c, 0x3f4e168b, 0x3e5e1430, 0x3f443730, 0x3e882c5e, 0x3f3b3ee8, 0x3ea02183]
/-- `logtab_f64` (FT:29-159) -/
def logtabD : List (BitVec 64) :=
  [0x3ff6a133d0dec120, 0xbfd62fe995eb963a, 0x3ff6815f2f3e42ed, 0xbfd5d5a48dad6b67, 0x3ff661e39be1ac9e, 0xbfd57bde257d2769,
   0x3ff642bfa30ac371, 0xbfd52294fbf2af55, 0x3ff623f1d916f323, 0xbfd4c9c7b598aa38, 0x3ff60578da220f65, 0xbfd47174fc5ff560,
   0x3ff5e75349dea571, 0xbfd4199b7fa7b5ca, 0x3ff5c97fd387a75a, 0xbfd3c239f48cfb99, 0x3ff5abfd2981f200, 0xbfd36b4f154d2aeb,
   0x3ff58eca051dc99c, 0xbfd314d9a0ff32fb, 0x3ff571e526d9df12, 0xbfd2bed85cca3cff, 0x3ff5554d555b3fcb, 0xbfd2694a11421af9,
   0x3ff539015e2a20cd, 0xbfd2142d8d014fb2, 0x3ff51d0014ee0164, 0xbfd1bf81a2c77776, 0x3ff50148538cd9ee, 0xbfd16b452a39c6a4,
   0x3ff4e5d8f9f698a1, 0xbfd11776ffa6c67e, 0x3ff4cab0edca66be, 0xbfd0c416035020e0, 0x3ff4afcf1a9db874, 0xbfd071211aa10fda,
   0x3ff495327136e16f, 0xbfd01e972e293b1b, 0x3ff47ad9e84af28f, 0xbfcf98ee587fd434, 0x3ff460c47b39ae15, 0xbfcef5800ad716fb,
   0x3ff446f12b278001, 0xbfce52e160484698, 0x3ff42d5efdd720ec, 0xbfcdb1104b19352e, 0x3ff4140cfe001a0f, 0xbfcd100ac59e0bd6,
   0x3ff3fafa3b421f69, 0xbfcc6fced287c3bd, 0x3ff3e225c9c8ece5, 0xbfcbd05a7b317c29, 0x3ff3c98ec29a211a, 0xbfcb31abd229164f,
   0x3ff3b13442a413fe, 0xbfca93c0edadb0a3, 0x3ff399156baa3c54, 0xbfc9f697ee30d7dd, 0x3ff38131639b4cdb, 0xbfc95a2efa9aa40a,
   0x3ff36987540fbf53, 0xbfc8be843d796044, 0x3ff352166b648f61, 0xbfc82395ecc477ed, 0x3ff33adddb3eb575, 0xbfc7896240966422,
   0x3ff323dcd99fc1d3, 0xbfc6efe77aca8c55, 0x3ff30d129fefc7d2, 0xbfc65723e117ec5c, 0x3ff2f67e6b72fe7d, 0xbfc5bf15c0955706,
   0x3ff2e01f7cf8b187, 0xbfc527bb6c111da1, 0x3ff2c9f518ddc86e, 0xbfc491133c939f8f, 0x3ff2b3fe86e5f413, 0xbfc3fb1b90c7fc58,
   0x3ff29e3b1211b25c, 0xbfc365d2cc485f8d, 0x3ff288aa08b373cf, 0xbfc2d13758970de7, 0x3ff2734abcaa8467, 0xbfc23d47a721fd47,
   0x3ff25e1c82459b81, 0xbfc1aa0229f25ec2, 0x3ff2491eb1ad59c5, 0xbfc117655ddebc3b, 0x3ff23450a54048b5, 0xbfc0856fbf83ab6b,
   0x3ff21fb1bb09e578, 0xbfbfe83fabbaa106, 0x3ff20b415346d8f7, 0xbfbec6e8507a56cd, 0x3ff1f6fed179a1ac, 0xbfbda6d68c7cc2ea,
   0x3ff1e2e99b93c7b3, 0xbfbc88078462be0c, 0x3ff1cf011a7a882a, 0xbfbb6a786a423565, 0x3ff1bb44b97dba5a, 0xbfba4e2676ac7f85,
   0x3ff1a7b3e66cdd4f, 0xbfb9330eea777e76, 0x3ff1944e11dc56cd, 0xbfb8192f134d5ad9, 0x3ff18112aebb1a6e, 0xbfb70084464f0538,
   0x3ff16e013231b7e9, 0xbfb5e90bdec5cb1f, 0x3ff15b1913f156cf, 0xbfb4d2c3433c5536, 0x3ff14859cdedde13, 0xbfb3bda7e219879a,
   0x3ff135c2dc68cfa4, 0xbfb2a9b732d27194, 0x3ff12353bdb01684, 0xbfb196eeb2b10807, 0x3ff1110bf25b85b4, 0xbfb0854be8ef8a7e,
   0x3ff0feeafd2f8577, 0xbfaee998cb277432, 0x3ff0ecf062c51c3b, 0xbfaccadb79919fb9, 0x3ff0db1baa076c8b, 0xbfaaae5b1d8618b0,
   0x3ff0c96c5bb3048e, 0xbfa89413015d7442, 0x3ff0b7e20263e070, 0xbfa67bfe7bf158de, 0x3ff0a67c2acd0ce3, 0xbfa46618f83941be,
   0x3ff0953a6391e982, 0xbfa2525df1b0618a, 0x3ff0841c3caea380, 0xbfa040c8e2f77c6a, 0x3ff07321489b13ea, 0xbf9c62aad39f738a,
   0x3ff062491aee9904, 0xbf9847fe3bdead9c, 0x3ff05193497a7cc5, 0xbf943183683400ac, 0x3ff040ff6b5f5e9f, 0xbf901f31c4e1d544,
   0x3ff0308d19aa6127, 0xbf882201d1e6b69a, 0x3ff0203beedb0c67, 0xbf800dd0f3e1bfd6, 0x3ff010037d38bcc2, 0xbf6ff6fe1feb4e53,
   0x3ff0000000000000, 0x0000000000000000, 0x3fefc06d493cca10, 0x3f7fe91885ec8e20, 0x3fef81e6ac3b918f, 0x3f8fc516f716296d,
   0x3fef44546ef18996, 0x3f97bb4dd70a015b, 0x3fef07b10382c84b, 0x3f9f84c99b34b674, 0x3feecbf7070e59d4, 0x3fa39f9ce4fb2d71,
   0x3fee91213f715939, 0x3fa7756c0fd22e78, 0x3fee572a9a75f7b7, 0x3fab43ee82db8f3a, 0x3fee1e0e2c530207, 0x3faf0b3fced60034,
   0x3fede5c72d8a8be3, 0x3fb165bd78d4878e, 0x3fedae50fa5658cc, 0x3fb3425d2715ebe6, 0x3fed77a71145a2da, 0x3fb51b8bd91b7915,
   0x3fed41c51166623e, 0x3fb6f15632c76a47, 0x3fed0ca6ba0bb29f, 0x3fb8c3c88ecbe503, 0x3fecd847e8e59681, 0x3fba92ef077625da,
   0x3feca4a499693e00, 0x3fbc5ed5745fa006, 0x3fec71b8e399e821, 0x3fbe27876de1c993, 0x3fec3f80faf19077, 0x3fbfed104fce4cdc,
   0x3fec0df92dc2b0ec, 0x3fc0d7bd9c17d78b, 0x3febdd1de3cbb542, 0x3fc1b76986cef97b, 0x3febaceb9e1007a3, 0x3fc295913d24f750,
   0x3feb7d5ef543e55e, 0x3fc37239fa295d17, 0x3feb4e749977d953, 0x3fc44d68dd78714b, 0x3feb20295155478e, 0x3fc52722ebe5d780,
   0x3feaf279f8e82be2, 0x3fc5ff6d12671f98, 0x3feac5638197fdf3, 0x3fc6d64c2389484b, 0x3fea98e2f102e087, 0x3fc7abc4da40fdda,
   0x3fea6cf5606d05c1, 0x3fc87fdbda1e8452, 0x3fea4197fc04d746, 0x3fc95295b06a5f37, 0x3fea16c80293dc01, 0x3fca23f6d34abbc5,
   0x3fe9ec82c4dc5bc9, 0x3fcaf403a28e04f2, 0x3fe9c2c5a491f534, 0x3fcbc2c06a85721a, 0x3fe9998e1480b618, 0x3fcc903161240163,
   0x3fe970d9977c6c2d, 0x3fcd5c5aa93287eb, 0x3fe948a5c023d212, 0x3fce274051823fa9, 0x3fe920f0303d6809, 0x3fcef0e656300c16,
   0x3fe8f9b698a98b45, 0x3fcfb9509f05aa2a, 0x3fe8d2f6b81726f6, 0x3fd04041821f37af, 0x3fe8acae5bb55bad, 0x3fd0a340a49b3029,
   0x3fe886db5d9275b8, 0x3fd105a7918a126d, 0x3fe8617ba567c13c, 0x3fd1677819812b84, 0x3fe83c8d27487800, 0x3fd1c8b405b40c0e,
   0x3fe8180de3c5dbe7, 0x3fd2295d16cfa6b1, 0x3fe7f3fbe71cdb71, 0x3fd28975066318a2, 0x3fe7d055498071c1, 0x3fd2e8fd855d86fc,
   0x3fe7ad182e54f65a, 0x3fd347f83d605e59, 0x3fe78a42c3c90125, 0x3fd3a666d1244588, 0x3fe767d342f76944, 0x3fd4044adb6f8ec4,
   0x3fe745c7ef26b00a, 0x3fd461a5f077558c, 0x3fe7241f15769d0f, 0x3fd4be799e20b9c8, 0x3fe702d70d396e41, 0x3fd51ac76a6b79df,
   0x3fe6e1ee3700cd11, 0x3fd57690d5744a45, 0x3fe6c162fc9cbe02, 0x3fd5d1d758e45217]
/-- `log2tab_f32` (FT:161-179) -/
def log2tabS : List (BitVec 32) :=
  [0x3fb30f64, 0xbef7f633, 0x3fab8f6a, 0xbed85b42, 0x3fa4a9d0, 0xbeba0c58, 0x3f9e4cae, 0xbe9cef49,
   0x3f9868c8, 0xbe80ece0, 0x3f92f114, 0xbe4be0e9, 0x3f8dda52, 0xbe17cf1d, 0x3f891ac8, 0xbdcb065e,
   0x3f84a9fa, 0xbd537cee, 0x3f800000, 0x00000000, 0x3f730468, 0x3d99c655, 0x3f652599, 0x3e23b54b,
   0x3f5901b3, 0x3e74205a, 0x3f4e168b, 0x3ea03230, 0x3f443730, 0x3ec474e1, 0x3f3b3ee8, 0x3ee70522]
/-- `log2tab_f64` (FT:181-246) -/
def log2tabD : List (BitVec 64) :=
  [0x3ff724286bb1acf8, 0xbfe1095feecdb000, 0x3ff6e1f766d2cca1, 0xbfe08494bd76d000, 0x3ff6a13d0e30d48a, 0xbfe00143aee8f800,
   0x3ff661ec32d06c85, 0xbfdefec5360b4000, 0x3ff623fa951198f8, 0xbfddfdd91ab7e000, 0x3ff5e75ba4cf026c, 0xbfdcffae0cc79000,
   0x3ff5ac055a214fb8, 0xbfdc043811fda000, 0x3ff571ed0f166e1e, 0xbfdb0b67323ae000, 0x3ff53909590bf835, 0xbfda152f5a2db000,
   0x3ff5014fed61addd, 0xbfd9217f5af86000, 0x3ff4cab88e487bd0, 0xbfd8304db0719000, 0x3ff49539b4334fee, 0xbfd74189f9a9e000,
   0x3ff460cbdfafd569, 0xbfd6552bb5199000, 0x3ff42d664ee4b953, 0xbfd56b23a29b1000, 0x3ff3fb01111dd8a6, 0xbfd483650f5fa000,
   0x3ff3c995b70c5836, 0xbfd39de937f6a000, 0x3ff3991c4ab6fd4a, 0xbfd2baa1538d6000, 0x3ff3698e0ce099b5, 0xbfd1d98340ca4000,
   0x3ff33ae48213e7b2, 0xbfd0fa853a40e000, 0x3ff30d191985bdb1, 0xbfd01d9c32e73000, 0x3ff2e025cab271d7, 0xbfce857da2fa6000,
   0x3ff2b404cf13cd82, 0xbfccd3c8633d8000, 0x3ff288b02c7ccb50, 0xbfcb26034c14a000, 0x3ff25e2263944de5, 0xbfc97c1c2f4fe000,
   0x3ff234563d8615b1, 0xbfc7d6023f800000, 0x3ff20b46e33eaf38, 0xbfc633a71a05e000, 0x3ff1e2eefdcda3dd, 0xbfc494f5e9570000,
   0x3ff1bb4a580b3930, 0xbfc2f9e424e0a000, 0x3ff19453847f2200, 0xbfc162595afdc000, 0x3ff16e06c0d5d73c, 0xbfbf9c9a75bd8000,
   0x3ff1485f47b7e4c2, 0xbfbc7b575bf9c000, 0x3ff12358ad0085d1, 0xbfb960c60ff48000, 0x3ff0fef00f532227, 0xbfb64ce247b60000,
   0x3ff0db2077d03a8f, 0xbfb33f78b2014000, 0x3ff0b7e6d65980d9, 0xbfb0387d1a42c000, 0x3ff0953efe7b408d, 0xbfaa6f9208b50000,
   0x3ff07325cac53b83, 0xbfa47a954f770000, 0x3ff05197e40d1b5c, 0xbf9d23a8c50c0000, 0x3ff03091c1208ea2, 0xbf916a2629780000,
   0x3ff0101025b37e21, 0xbf7720f8d8e80000, 0x3fefc07ef9caa76b, 0x3f86fe53b1500000, 0x3fef4465d3f6f184, 0x3fa11ccce10f8000,
   0x3feecc079f84107f, 0x3fac4dfc8c8b8000, 0x3fee573a99975ae8, 0x3fb3aa321e574000, 0x3fede5d6f0bd3de6, 0x3fb918a0d08b8000,
   0x3fed77b681ff38b3, 0x3fbe72e9da044000, 0x3fed0cb5724de943, 0x3fc1dcd2507f6000, 0x3feca4b2dc0e7563, 0x3fc476ab03dea000,
   0x3fec3f8ee8d6cb51, 0x3fc7074377e22000, 0x3febdd2b4f020c4c, 0x3fc98ede8ba94000, 0x3feb7d6c006015ca, 0x3fcc0db86ad2e000,
   0x3feb20366e2e338f, 0x3fce840aafcee000, 0x3feac57026295039, 0x3fd0790ab4678000, 0x3fea6d01bc2731dd, 0x3fd1ac056801c000,
   0x3fea16d3bc3ff18b, 0x3fd2db11d4fee000, 0x3fe9c2d14967fead, 0x3fd406464ec58000, 0x3fe970e4f47c9902, 0x3fd52dbe093af000,
   0x3fe920fb3982bcf2, 0x3fd651902050d000, 0x3fe8d30187f759f1, 0x3fd771d2cdeaf000, 0x3fe886e5ebb9f66d, 0x3fd88e9c857d9000,
   0x3fe83c97b658b994, 0x3fd9a80155e16000, 0x3fe7f405ffc61022, 0x3fdabe186ed3d000, 0x3fe7ad22181415ca, 0x3fdbd0f2aea0e000,
   0x3fe767dcf99eff8c, 0x3fdce0a43dbf4000]
/-- `logcoff_f32` (FC:116) -/
def logcoffS : List (BitVec 32) :=
  [0xbe80751a, 0x3eaabad8, 0xbefffff8]
/-- `logcoff_f64` (FC:115) -/
def logcoffD : List (BitVec 64) :=
  [0xbfdffffffffffff7, 0x3fd55555555170d4, 0xbfd0000000399c27, 0x3fc999b2e90e94ca, 0xbfc554e550bd501e]
/-- `log2coff_f32` (FC:136) -/
def log2coffS : List (BitVec 32) :=
  [0xbeb895b8, 0x3ef655fa, 0xbf38aa3d, 0x3fb8aa3b]
/-- `log2coff_f64` (FC:135) -/
def log2coffD : List (BitVec 64) :=
  [0xbfe71547652b8339, 0x3fdec709dc3a04be, 0xbfd7154764702ffb, 0x3fd2776c50034c48, 0xbfcec7b328ea92bc, 0x3fca6225e117f92e]
/-- `logtab_bits_*`, `log2tab_bits_*` (FC:118, 122, 138, 142) -/
def logtabBitsS : Nat := 4
def logtabBitsD : Nat := 7
def log2tabBitsS : Nat := 4
def log2tabBitsD : Nat := 6
/-- `ln2<T>` (FC:24-25) -/
def ln2Bits (w : Nat) : BitVec w := if w = 64 then BitVec.ofNat w 0x3fe62e42fefa39ef else BitVec.ofNat w 0x3f317218
/-- `log10_2l<T>`, `log10_2h<T>`, `ivln10<T>` (FC:155-160) -/
def log10_2l (w : Nat) : BitVec w := if w = 64 then BitVec.ofNat w 0x3d59fef311f12b36 else BitVec.ofNat w 0x355427db
def log10_2h (w : Nat) : BitVec w := if w = 64 then BitVec.ofNat w 0x3fd34413509f6000 else BitVec.ofNat w 0x3e9a2080
def ivln10 (w : Nat) : BitVec w := if w = 64 then BitVec.ofNat w 0x3fdbcb7b1526e50e else BitVec.ofNat w 0x3ede5bd9
/-- `invln2l<double>`, `invln2h<double>` (FC:161-164) -/
def invln2l : BitVec 64 := 0x3de705fc2eefa200#64
def invln2h : BitVec 64 := 0x3ff7154765200000#64
/-- the literals `0x3f33'0000` (EX:134, L2:20) and `0x3fe6'9009'0000'0000` (EX:157, L2:51) -/
def logOff (w : Nat) : BitVec w := if w = 64 then BitVec.ofNat w 0x3fe6900900000000 else BitVec.ofNat w 0x3f330000

/-! ### LUT -/
/-- `lut_load<V, I>(table, idx, loc)` (LUT:26-66 with AVX2 gathers, 67-166 without), for `I` of the size of `T` and the default
`Scale` = `sizeof(T)` (the only instances): undefined if an index is outside the table -/
def lutLoad (T : Ety) (v : VSz) (tab : List (BitVec T.w)) (idx : Vec v) : Option (Vec v) :=
  if ∀ i, i < extent T v → (lane T.w idx i).toNat < tab.length
  then some (ofLanes v.bits T.w (fun i => tab.getD (lane T.w idx i).toNat 0)) else none
/-- `log_get_table<V>` (EX:62-71) -/
def logGetTable (s : ISA) (T : Ety) (v : VSz) (tab : List (BitVec T.w)) (idx : Vec v) : Option (Vec v × Vec v) :=
  let iInvc := shlC s T.toI 1 v idx
  let iLogc := addI s T.toI v iInvc (fillV v (1#T.w))
  (lutLoad T v tab iInvc).bind fun invc => (lutLoad T v tab iLogc).bind fun logc => some (invc, logc)

/-! ### EX -/
/-- `log_excepts<T>` (EX:72-88) -/
def logExcepts (o : MathOpt) (s : ISA) (T : Ety) (v : VSz) (y x : Vec v) : Vec v :=
  let y := if o.propNan then blendv s T v x y (isfiniteAbs s T v x) else y
  if o.handleErr then
    let zeroMask := cmpEq s T v x (setzero v)
    let y := if testMask s v zeroMask then exceptDivzero s T v false y x zeroMask else y
    let minusMask := cmpF fLt T v x (setzero v)
    if testMask s v minusMask then exceptInvalid s T v y x minusMask else y
  else y
/-- `log_normalize<float>` (EX:90-107): `0x1p23f` is 0x4b000000; the comparison is signed -/
def logNormalizeS (s : ISA) (v : VSz) (x : Vec v) : Vec v :=
  let T := Ety.f32
  let isSubnorm := cmpGtI s 4 v (subI s T.toI v x (fillV v (0x800000#32))) (fillV v (0x7f000000#32 - 1#32))
  if testMask s v isSubnorm then
    let xNorm := fmulL 32 x (fillV v (0x4b000000#32))
    let ixNorm := subI s T.toI v xNorm (fillV v (BitVec.ofNat 32 (23 * 2 ^ 23)))
    blendv s T.toI v x ixNorm isSubnorm
  else x
/-- `log_normalize<double>` (EX:108-126): `sub_off` and `sub_max` are `int`s, so that both halves of each lane are filled;
`0x1p52` is 0x4330000000000000 -/
def logNormalizeD (s : ISA) (v : VSz) (x : Vec v) : Vec v :=
  let T := Ety.f64
  let top16 := shrC s T.toI 48 v x
  let isSubnorm := cmpGtL32 s v (subI s T.toI v top16 (fillV v (0x10#32))) (fillV v (0x7fe0#32 - 1#32))
  if testMask s v isSubnorm then
    let xNorm := fmulL 64 x (fillV v (0x4330000000000000#64))
    let ixNorm := subI s T.toI v xNorm (fillV v (BitVec.ofNat 64 (52 * 2 ^ 52)))
    blendv s T.toI v x ixNorm isSubnorm
  else x
/-- `cvt_i32_f64<V>` (x86/cvt.hpp:187-188, 353-354): `_mm_cvtepi32_pd`, `_mm256_cvtepi32_pd` -/
def cvtI32F64 (v : VSz) (x : BitVec 128) : Vec v := ofLanes v.bits 64 (fun i => ofInt 64 (lane 32 x i).toInt)
/-- the argument reduction shared by `eval_log` (EX:134-143, 157-166, 168-169) and `impl_log2` (L2:20-27, 31, 51-58, 67):
`z`, `k` converted to floating point, `invc` and `logc`.  The index mask is an `int`. -/
def logReduce (s : ISA) (T : Ety) (v : VSz) (bits : Nat) (tab : List (BitVec T.w)) (ix : Vec v) : Option (Vec v × Vec v × Vec v × Vec v) :=
  let tmp := subI s T.toI v ix (fillV v (logOff T.w))
  let i := shrC s T.toI (mantBits T.w - bits) v tmp
  let i := bitAnd i (fillV v (BitVec.ofNat 32 (2 ^ bits - 1)))
  (logGetTable s T v tab i).map fun p =>
    let k := ashrC s T.toI (mantBits T.w) v tmp
    let z := subI s T.toI v ix (bitAnd tmp (fillV v (signBit T.w ||| expOnes T.w)))
    let kf := if T.bytes = 8 then cvtI32F64 v (cvtI64I32 v k) else cvtepiL 32 k
    (z, kf, p.1, p.2)
/-- `eval_log<float>` (EX:130-152) -/
def evalLogS (s : ISA) (fm : Bool) (v : VSz) (ix : Vec v) : Option (Vec v) :=
  (logReduce s Ety.f32 v logtabBitsS logtabS ix).map fun (z, kf, invc, logc) =>
    let c := fun i => fillV v (logcoffS.getD i 0)
    let r := fmsubV fm 32 z invc (fillV v (oneBits 32))
    let y0 := fmaddV fm 32 kf (fillV v (ln2Bits 32)) logc
    let r2 := fmulL 32 r r
    let y := fmaddV fm 32 (c 1) r (c 2)
    let y := fmaddV fm 32 (c 0) r2 y
    fmaddV fm 32 y r2 (faddL 32 y0 r)
/-- `eval_log<double>` (EX:153-178) -/
def evalLogD (s : ISA) (fm : Bool) (v : VSz) (ix : Vec v) : Option (Vec v) :=
  (logReduce s Ety.f64 v logtabBitsD logtabD ix).map fun (z, kf, invc, logc) =>
    let c := fun i => fillV v (logcoffD.getD i 0)
    let r := fmaddV fm 64 z invc (fillV v (0xbff0000000000000#64))
    let y0 := fmaddV fm 64 kf (fillV v (ln2Bits 64)) logc
    let r2 := fmulL 64 r r
    let p := fmaddV fm 64 (c 1) r (c 0)
    let y := fmaddV fm 64 (c 3) r (c 2)
    let y := fmaddV fm 64 (c 4) r2 y
    fmaddV fm 64 (fmaddV fm 64 y r2 p) r2 (faddL 64 y0 r)

/-! ### LG, L2: log, log2 -/
/-- `bit_andnot(cmp_eq<T>(x, fill<V>(1.0)), y)` (LG:16, 25, L2:40, 83, L10:41, 76) -/
def logOne (s : ISA) (T : Ety) (v : VSz) (y x : Vec v) : Vec v := bitAndnot (cmpEq s T v x (fillV v (oneBits T.w))) y
/-- `impl_log<T>` (LG:11-28) -/
def implLog (o : MathOpt) (s : ISA) (fm : Bool) (T : Ety) (v : VSz) (x : Vec v) : Option (Vec v) :=
  let y := if T.bytes = 8 then evalLogD s fm v (logNormalizeD s v x) else evalLogS s fm v (logNormalizeS s v x)
  y.map fun y => logExcepts o s T v (logOne s T v y x) x
/-- `impl_log2<float>` (L2:13-43) before the special cases -/
def evalLog2S (s : ISA) (fm : Bool) (v : VSz) (ix : Vec v) : Option (Vec v) :=
  (logReduce s Ety.f32 v log2tabBitsS log2tabS ix).map fun (z, kf, invc, logc) =>
    let c := fun i => fillV v (log2coffS.getD i 0)
    let r := fmaddV fm 32 z invc (fillV v (0xbf800000#32))
    let y0 := faddL 32 logc kf
    let r2 := fmulL 32 r r
    let p := fmaddV fm 32 (c 3) r y0
    let y := fmaddV fm 32 (c 1) r (c 2)
    fmaddV fm 32 (fmaddV fm 32 (c 0) r2 y) r2 p
/-- `impl_log2<double>` (L2:44-86) before the special cases -/
def evalLog2D (s : ISA) (fm : Bool) (v : VSz) (ix : Vec v) : Option (Vec v) :=
  (logReduce s Ety.f64 v log2tabBitsD log2tabD ix).map fun (z, kf, invc, logc) =>
    let c := fun i => fillV v (log2coffD.getD i 0)
    let r := fmaddV fm 64 z invc (fillV v (0xbff0000000000000#64))
    let t1 := fmulL 64 r (fillV v invln2h)
    let t2 := fmsubV fm 64 r (fillV v invln2h) t1
    let t2 := fmaddV fm 64 r (fillV v invln2l) t2
    let t3 := faddL 64 logc kf
    let hh := faddL 64 t3 t1
    let ll := faddL 64 (fsubL 64 t3 hh) (faddL 64 t1 t2)
    let r2 := fmulL 64 r r
    let r4 := fmulL 64 r2 r2
    let p := fmaddV fm 64 r (c 3) (c 2)
    let y := fmaddV fm 64 (c 5) r (c 4)
    let y := fmaddV fm 64 r4 y (c 0)
    let y := fmaddV fm 64 r (c 1) y
    let y := fmaddV fm 64 r2 (fmaddV fm 64 r2 p y) hh
    faddL 64 ll y
/-- `impl_log2<T>` (L2:13-86) -/
def implLog2 (o : MathOpt) (s : ISA) (fm : Bool) (T : Ety) (v : VSz) (x : Vec v) : Option (Vec v) :=
  let y := if T.bytes = 8 then evalLog2D s fm v (logNormalizeD s v x) else evalLog2S s fm v (logNormalizeS s v x)
  y.map fun y => logExcepts o s T v (logOne s T v y x) x

/-! ### L10: log10 -/
/-- `is_subnorm` of `impl_log10<float>` (L10:17) and of `impl_log10<double>` (L10:51-52, where the top 16 bits are compared with
`0x10 << 48`) -/
def log10Sub (s : ISA) (T : Ety) (v : VSz) (x : Vec v) : Vec v :=
  if T.bytes = 8 then cmpGtI s 8 v (fillV v (BitVec.ofNat 64 (0x10 * 2 ^ 48))) (shrC s T.toI 48 v x)
  else cmpGtI s 4 v (fillV v (0x800000#32)) x
/-- the scaling of `impl_log10` (L10:14-27, 48-62): the new `ix` and `k`.  `0x1p25f` is 0x4c000000, `0x1p54` is 0x4350000000000000;
`25ull` and `54ull` fill lanes of 64 bits -/
def log10Norm (s : ISA) (T : Ety) (v : VSz) (x : Vec v) : Vec v × Vec v :=
  let k := setzero v
  let isSubnorm := log10Sub s T v x
  let p := if testMask s v isSubnorm then
      let ixNorm := fmulL T.w x (fillV v (expMult T.w))
      let k := subI s T.toI v k (bitAnd isSubnorm (fillV v (if T.bytes = 8 then 54#64 else 25#64)))
      (blendv s T.toI v x ixNorm isSubnorm, k)
    else (x, k)
  let k := addI s T.toI v p.2 (subI s T.toI v (shrC s T.toI (mantBits T.w) v p.1) (fillV v (BitVec.ofNat T.w (expOff T.w))))
  (p.1, k)
/-- `impl_log10<T>` (L10:11-44, 45-79) -/
def implLog10 (o : MathOpt) (s : ISA) (fm : Bool) (T : Ety) (v : VSz) (x : Vec v) : Option (Vec v) :=
  let p := log10Norm s T v x
  let k := p.2
  let signK := shrC s T.toI (T.w - 1) v k
  let ix := bitAnd p.1 (fillV v (~~~ (signBit T.w ||| expOnes T.w)))
  let ix := bitOr ix (shlC s T.toI (mantBits T.w) v (subI s T.toI v (fillV v (BitVec.ofNat T.w (expOff T.w))) signK))
  let ks := addI s T.toI v k signK
  let y := if T.bytes = 8 then cvtI32F64 v (cvtI64I32 v ks) else cvtepiL 32 ks
  (if T.bytes = 8 then evalLogD s fm v ix else evalLogS s fm v ix).map fun l =>
    let z := fmulL T.w (fillV v (ivln10 T.w)) l
    let z := fmaddV fm T.w y (fillV v (log10_2l T.w)) z
    let y := fmaddV fm T.w y (fillV v (log10_2h T.w)) z
    logExcepts o s T v (logOne s T v y x) x

/-! ### L1: log1p -/
/-- `log1p_excepts<T>` (L1:26-45) -/
def log1pExcepts (o : MathOpt) (s : ISA) (T : Ety) (v : VSz) (y x : Vec v) : Vec v :=
  let mone := fillV v (oneBits T.w ^^^ BitVec.intMin T.w)
  let y := if o.propNan then blendv s T v x y (isfiniteAbs s T v x) else y
  if o.handleErr then
    let exp := shrC s T.toI (mantBits T.w) v x
    let y := blendv s T v y x (cmpEqI s T.bytes v exp (setzero v))
    let zeroMask := cmpEq s T v x mone
    let y := if testMask s v zeroMask then exceptDivzero s T v false y x zeroMask else y
    let minusMask := cmpF fLt T v x mone
    if testMask s v minusMask then exceptInvalid s T v y x minusMask else y
  else y
/-- the literals of `impl_log1p` (L1:54, 56, 57, 83, 85, 86): the bound of the range test, the rounding constant, the exponent offset -/
def log1pRange (w : Nat) : BitVec w := if w = 64 then BitVec.ofNat w 0xbfd2bec4 else BitVec.ofNat w 0xbe95f61a
def log1pRound (w : Nat) : BitVec w := if w = 64 then BitVec.ofNat w (0x95f62 * 2 ^ 32) else BitVec.ofNat w 0x4afb0d
def log1pExp (w : Nat) : BitVec w := if w = 64 then BitVec.ofNat w 0x3fd else BitVec.ofNat w 0x7d
/-- `impl_log1p<T>` (L1:47-75, 76-104) -/
def implLog1p (o : MathOpt) (s : ISA) (fm : Bool) (T : Ety) (v : VSz) (x : Vec v) : Option (Vec v) :=
  let one := fillV v (oneBits T.w)
  let u := faddL T.w x one
  let rangeMask := cmpGtI s T.bytes v (fillV v (log1pRange T.w)) x
  let k := addI s T.toI v u (fillV v (log1pRound T.w))
  let k := subI s T.toI v (shrC s T.toI (mantBits T.w) v k) (fillV v (log1pExp T.w))
  let cMask := cmpGtI s T.bytes v (setzero v) k
  let c0 := fsubL T.w one (fsubL T.w u x)
  let c1 := fsubL T.w x (fsubL T.w u one)
  let c := blendv s T v c0 c1 cMask
  let exactMask := bitOr (cmpGtI s T.bytes v k (fillV v (BitVec.ofNat T.w (mantBits T.w - 1)))) rangeMask
  let c := bitAndnot exactMask c
  (if T.bytes = 8 then evalLogD s fm v u else evalLogS s fm v u).map fun l =>
    let y := faddL T.w l (fdivL T.w c u)
    let y := bitAndnot (cmpEq s T v x (setzero v)) y
    log1pExcepts o s T v y x

/-! ### API functions (run-time branches) -/
section api
variable (c : Cfg) (o : MathOpt) (fm : Bool)
/-- `vectorize` of a native function that may have undefined behaviour -/
def vectorizeU (k : Vec c.v → Option (Vec c.v)) (x : c.Data) : Out c.Data :=
  Out.ofUb (forRangeM c.dataSize (fun j (r : c.Data) => (k (x j)).map (fun y => r.set j y)) (zeroData c))
/-- `log(x)` (EX:256-271), `log2(x)` (EX:272-287), `log10(x)` (EX:288-303), `log1p(x)` (EX:304-319) -/
def vLog (x : c.Data) : Out c.Data := vectorizeU c (implLog o c.s fm c.T c.v) x
def vLog2 (x : c.Data) : Out c.Data := vectorizeU c (implLog2 o c.s fm c.T c.v) x
def vLog10 (x : c.Data) : Out c.Data := vectorizeU c (implLog10 o c.s fm c.T c.v) x
def vLog1p (x : c.Data) : Out c.Data := vectorizeU c (implLog1p o c.s fm c.T c.v) x
end api
end Dpm.X86
