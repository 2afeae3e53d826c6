import Verif.Proofs.Primes

/-!
The prime order on the twist of curve25519, with the primes its proof needs.
-/

namespace Verif

theorem prime_5171003929967 :
    Nat.Prime 5171003929967 := by
  refine prime_of_certificate _ 5
    [2, 7, 31, 181, 2281, 28859] ?_ (by decide +kernel) (by decide +kernel)
    (by decide +kernel) (by decide +kernel) (by decide +kernel)
  simp only [List.forall_mem_cons]
  refine ⟨by norm_num, by norm_num, by norm_num, by norm_num, by norm_num, by norm_num, by simp⟩

theorem prime_22561162540501040539 :
    Nat.Prime 22561162540501040539 := by
  refine prime_of_certificate _ 3
    [2, 3, 727169, 5171003929967] ?_ (by decide +kernel) (by decide +kernel)
    (by decide +kernel) (by decide +kernel) (by decide +kernel)
  simp only [List.forall_mem_cons]
  refine ⟨by norm_num, by norm_num, by norm_num, prime_5171003929967, by simp⟩

theorem prime_1013266244677 :
    Nat.Prime 1013266244677 := by
  refine prime_of_certificate _ 2
    [2, 2, 3, 7, 383, 3911, 8053] ?_ (by decide +kernel) (by decide +kernel)
    (by decide +kernel) (by decide +kernel) (by decide +kernel)
  simp only [List.forall_mem_cons]
  refine ⟨by norm_num, by norm_num, by norm_num, by norm_num, by norm_num, by norm_num, by norm_num, by simp⟩

theorem prime_743104567 :
    Nat.Prime 743104567 := by
  refine prime_of_certificate _ 6
    [2, 3, 3, 3637, 11351] ?_ (by decide +kernel) (by decide +kernel)
    (by decide +kernel) (by decide +kernel) (by decide +kernel)
  simp only [List.forall_mem_cons]
  refine ⟨by norm_num, by norm_num, by norm_num, by norm_num, by norm_num, by simp⟩

theorem prime_203852586375664218368381551393371968928013 :
    Nat.Prime 203852586375664218368381551393371968928013 := by
  refine prime_of_certificate _ 2
    [2, 2, 3, 743104567, 1013266244677, 22561162540501040539] ?_ (by decide +kernel) (by decide +kernel)
    (by decide +kernel) (by decide +kernel) (by decide +kernel)
  simp only [List.forall_mem_cons]
  refine ⟨by norm_num, by norm_num, by norm_num, prime_743104567, prime_1013266244677, prime_22561162540501040539, by simp⟩

theorem prime_104719073621178708975837602950775180438320278101 :
    Nat.Prime 104719073621178708975837602950775180438320278101 := by
  refine prime_of_certificate _ 2
    [2, 2, 5, 5, 11, 467, 203852586375664218368381551393371968928013] ?_ (by decide +kernel) (by decide +kernel)
    (by decide +kernel) (by decide +kernel) (by decide +kernel)
  simp only [List.forall_mem_cons]
  refine ⟨by norm_num, by norm_num, by norm_num, by norm_num, by norm_num, by norm_num, prime_203852586375664218368381551393371968928013, by simp⟩

theorem prime_27413359092552162435694767700453926735143482401279781 :
    Nat.Prime 27413359092552162435694767700453926735143482401279781 := by
  refine prime_of_certificate _ 2
    [2, 2, 3, 5, 4363, 104719073621178708975837602950775180438320278101] ?_ (by decide +kernel) (by decide +kernel)
    (by decide +kernel) (by decide +kernel) (by decide +kernel)
  simp only [List.forall_mem_cons]
  refine ⟨by norm_num, by norm_num, by norm_num, by norm_num, by norm_num, prime_104719073621178708975837602950775180438320278101, by simp⟩

theorem prime_1110318119 :
    Nat.Prime 1110318119 := by
  refine prime_of_certificate _ 7
    [2, 7, 13, 487, 12527] ?_ (by decide +kernel) (by decide +kernel)
    (by decide +kernel) (by decide +kernel) (by decide +kernel)
  simp only [List.forall_mem_cons]
  refine ⟨by norm_num, by norm_num, by norm_num, by norm_num, by norm_num, by simp⟩

theorem prime_2220636239 :
    Nat.Prime 2220636239 := by
  refine prime_of_certificate _ 23
    [2, 1110318119] ?_ (by decide +kernel) (by decide +kernel)
    (by decide +kernel) (by decide +kernel) (by decide +kernel)
  simp only [List.forall_mem_cons]
  refine ⟨by norm_num, prime_1110318119, by simp⟩

theorem prime_14474011154664524427946373126085988481603263447650325797860494125407373907997 :
    Nat.Prime 14474011154664524427946373126085988481603263447650325797860494125407373907997 := by
  refine prime_of_certificate _ 2
    [2, 2, 79, 117223, 6418733, 2220636239, 27413359092552162435694767700453926735143482401279781] ?_ (by decide +kernel) (by decide +kernel)
    (by decide +kernel) (by decide +kernel) (by decide +kernel)
  simp only [List.forall_mem_cons]
  refine ⟨by norm_num, by norm_num, by norm_num, by norm_num, by norm_num, prime_2220636239, prime_27413359092552162435694767700453926735143482401279781, by simp⟩

end Verif
